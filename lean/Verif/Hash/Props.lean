import Verif.Hash.Model
import Mathlib.Data.List.Basic

/-!
# C17 and C18: the hash table is a finite map

The specification is a mathematical partial map `K → Option V`, updated on all keys equal to the given one.
-/
namespace Dom.Hash

variable {K V : Type}

/-- What a client vtable must satisfy: key equality is an equivalence that the hash respects. -/
structure Lawful (vt : VTable K V) : Prop where
  refl : ∀ k, vt.isEqual k k = true
  symm : ∀ {k l}, vt.isEqual k l = true → vt.isEqual l k = true
  trans : ∀ {k l m}, vt.isEqual k l = true → vt.isEqual l m = true → vt.isEqual k m = true
  hash : ∀ {k l}, vt.isEqual k l = true → vt.hash k = vt.hash l

/-- The calls of the property. -/
inductive Op (K V : Type)
  | add (key : Option K) (value : Option V) (replace : Bool)
  | get (key : Option K)
  | del (key : Option K)

/-- What a call returns. -/
inductive Answer (V : Type)
  | bool (b : Bool)
  | ptr (v : Option V)

/-- The code: one call. -/
def step (vt : VTable K V) (t : Table K V) : Op K V → Out (Table K V × Answer V)
  | .add k v r => do let x ← add vt t k v r; .ok (x.1, .bool x.2)
  | .get k => do let x ← get vt t k; .ok (t, .ptr x)
  | .del k => do let x ← del vt t k; .ok (x.1, .ptr x.2)

/-- The code: a sequence of calls, with all answers. -/
def run (vt : VTable K V) (t : Table K V) : List (Op K V) → Out (Table K V × List (Answer V))
  | [] => .ok (t, [])
  | o :: os => do
    let x ← step vt t o
    let y ← run vt x.1 os
    .ok (y.1, x.2 :: y.2)

/-- A partial map with the binding of `k` (and of all keys equal to `k`) changed to `v`. -/
def upd (vt : VTable K V) (m : K → Option V) (k : K) (v : Option V) : K → Option V :=
  fun x => if vt.isEqual x k then v else m x

/-- The mathematical map: one call. -/
def specStep (vt : VTable K V) (m : K → Option V) : Op K V → (K → Option V) × Answer V
  | .add (some k) (some v) r =>
    match m k, r with
    | none, _ => (upd vt m k (some v), .bool true)
    | some _, true => (upd vt m k (some v), .bool true)
    | some _, false => (m, .bool false)
  | .add _ _ _ => (m, .bool false)
  | .get (some k) => (m, .ptr (m k))
  | .get none => (m, .ptr none)
  | .del (some k) => (upd vt m k none, .ptr (m k))
  | .del none => (m, .ptr none)

/-- The mathematical map: a sequence of calls. -/
def specRun (vt : VTable K V) (m : K → Option V) : List (Op K V) → (K → Option V) × List (Answer V)
  | [] => (m, [])
  | o :: os =>
    let x := specStep vt m o
    let y := specRun vt x.1 os
    (y.1, x.2 :: y.2)

/-- Repeating `_dom_hash_iterate` from the contexts `it` yields the keys `ks` in this order and then NULL. -/
inductive Visits (t : Table K V) : Iter K V → List K → Prop
  | stop {it it'} : iterate t it = .ok (it', none) → Visits t it []
  | next {it it' k ks} : iterate t it = .ok (it', some k) → Visits t it' ks → Visits t it (k :: ks)

/-- The contexts at the start of an iteration: `c2` is NULL. -/
def Iter.start : Iter K V := { c1 := none, he := [] }

/-! ## Invariant -/

/-- No two entries have equal keys. -/
def Distinct (vt : VTable K V) (es : List (K × V)) : Prop := es.Pairwise fun a b => vt.isEqual a.1 b.1 = false

structure Inv (vt : VTable K V) (t : Table K V) : Prop where
  pos : 0 < t.nchains
  len : t.chain.length = t.nchains
  home : ∀ c es, t.chain[c]? = some es → ∀ e ∈ es, vt.hash e.1 % t.nchains = c
  distinct : Distinct vt t.chain.flatten
  count : t.nentries = u32 t.chain.flatten.length

theorem getLoop_none {vt : VTable K V} {k : K} {es : List (K × V)} :
    getLoop vt k es = none ↔ ∀ e ∈ es, vt.isEqual k e.1 = false := by
  induction es with
  | nil => simp [getLoop]
  | cons e es ih =>
    simp only [getLoop, List.mem_cons, forall_eq_or_imp, ← ih]
    split <;> simp_all

theorem getLoop_append (vt : VTable K V) (k : K) (a b : List (K × V)) :
    getLoop vt k (a ++ b) = (getLoop vt k a).or (getLoop vt k b) := by
  induction a with
  | nil => simp [getLoop]
  | cons e a ih => simp only [List.cons_append, getLoop]; split <;> simp [ih]

theorem isEqual_false_of {vt : VTable K V} (hl : Lawful vt) {a b c : K} (h1 : vt.isEqual a b = true)
    (h2 : vt.isEqual b c = false) : vt.isEqual a c = false := by
  rw [← Bool.not_eq_true] at *
  intro h
  exact h2 (hl.trans (hl.symm h1) h)

theorem isEqual_comm {vt : VTable K V} (hl : Lawful vt) (a b : K) : vt.isEqual a b = vt.isEqual b a := by
  rw [Bool.eq_iff_iff]; exact ⟨hl.symm, hl.symm⟩

/-- In a list without equal keys, the search finds the entry. -/
theorem getLoop_mid {vt : VTable K V} (hl : Lawful vt) {pre post : List (K × V)} {e : K × V}
    (hd : Distinct vt (pre ++ e :: post)) (x : K) :
    getLoop vt x (pre ++ e :: post) = if vt.isEqual x e.1 then some e.2 else getLoop vt x (pre ++ post) := by
  rw [getLoop_append, getLoop_append]
  simp only [getLoop]
  split
  · rename_i h
    have : getLoop vt x pre = none := by
      rw [getLoop_none]
      intro a ha
      have := (List.pairwise_append.1 hd).2.2 a ha e (by simp)
      exact isEqual_false_of hl h (by rw [isEqual_comm hl]; exact this)
    simp [this]
  · rfl

theorem Distinct.drop {vt : VTable K V} {pre post : List (K × V)} {e : K × V}
    (hd : Distinct vt (pre ++ e :: post)) : Distinct vt (pre ++ post) := by
  have h := List.pairwise_append.1 hd
  refine List.pairwise_append.2 ⟨h.1, (List.pairwise_cons.1 h.2.1).2, ?_⟩
  intro a ha b hb
  exact h.2.2 a ha b (by simp [hb])

theorem Distinct.none {vt : VTable K V} (hl : Lawful vt) {pre post : List (K × V)} {e : K × V}
    (hd : Distinct vt (pre ++ e :: post)) {k : K} (hk : vt.isEqual k e.1 = true) :
    ∀ a ∈ pre ++ post, vt.isEqual k a.1 = false := by
  have h := List.pairwise_append.1 hd
  intro a ha
  refine isEqual_false_of hl hk ?_
  rcases List.mem_append.1 ha with ha | ha
  · rw [isEqual_comm hl]; exact h.2.2 a ha e (by simp)
  · exact (List.pairwise_cons.1 h.2.1).1 a ha

theorem Distinct.put {vt : VTable K V} (hl : Lawful vt) {pre post : List (K × V)} (hd : Distinct vt (pre ++ post))
    {e : K × V} (hno : ∀ a ∈ pre ++ post, vt.isEqual e.1 a.1 = false) : Distinct vt (pre ++ e :: post) := by
  have h := List.pairwise_append.1 hd
  refine List.pairwise_append.2 ⟨h.1, List.pairwise_cons.2 ⟨fun a ha => hno a (by simp [ha]), h.2.1⟩, ?_⟩
  intro a ha b hb
  rcases List.mem_cons.1 hb with rfl | hb
  · rw [isEqual_comm hl]; exact hno a (by simp [ha])
  · exact h.2.2 a ha b hb

/-- The chain of a key, and what surrounds it. -/
theorem Inv.chain_of {vt : VTable K V} {t : Table K V} (hi : Inv vt t) (hl : Lawful vt) (k : K) :
    ∃ A es B, t.chain = A ++ es :: B ∧ A.length = vt.hash k % t.nchains ∧
      chainOf vt t k = .ok (vt.hash k % t.nchains, es) ∧
      (∀ a ∈ A.flatten, vt.isEqual k a.1 = false) ∧ (∀ a ∈ B.flatten, vt.isEqual k a.1 = false) := by
  have hlt : vt.hash k % t.nchains < t.chain.length := by rw [hi.len]; exact Nat.mod_lt _ hi.pos
  have hsplit : t.chain = t.chain.take (vt.hash k % t.nchains) ++
      t.chain[vt.hash k % t.nchains] :: t.chain.drop (vt.hash k % t.nchains + 1) := by
    rw [← List.drop_eq_getElem_cons hlt, List.take_append_drop]
  refine ⟨_, _, _, hsplit, by rw [List.length_take]; omega, ?_, ?_, ?_⟩
  · unfold chainOf
    rw [if_neg (by have := hi.pos; omega)]
    simp only [List.getElem?_eq_getElem hlt]
  · intro a ha
    obtain ⟨es, hes, hae⟩ := List.mem_flatten.1 ha
    obtain ⟨i, hi', e⟩ := List.getElem_of_mem hes
    simp only [List.getElem_take] at e
    rw [List.length_take] at hi'
    have hne : i ≠ vt.hash k % t.nchains := by omega
    rw [← Bool.not_eq_true]
    intro hk
    apply hne
    rw [hl.hash hk]
    exact (hi.home i es (by rw [← e]; exact List.getElem?_eq_getElem (by omega)) a hae).symm
  · intro a ha
    obtain ⟨es, hes, hae⟩ := List.mem_flatten.1 ha
    obtain ⟨i, hi', e⟩ := List.getElem_of_mem hes
    simp only [List.getElem_drop] at e
    rw [List.length_drop] at hi'
    have hne : vt.hash k % t.nchains + 1 + i ≠ vt.hash k % t.nchains := by omega
    rw [← Bool.not_eq_true]
    intro hk
    have hh := hi.home _ es (by rw [← e]; exact List.getElem?_eq_getElem (by omega)) a hae
    rw [← hl.hash hk] at hh
    exact hne hh.symm

theorem get_eq {vt : VTable K V} {t : Table K V} (hi : Inv vt t) (hl : Lawful vt) (k : K) :
    get vt t (some k) = .ok (getLoop vt k t.chain.flatten) := by
  obtain ⟨A, es, B, hc, _, hco, hA, hB⟩ := hi.chain_of hl k
  unfold get
  simp only [hco, Out.bind_ok]
  rw [hc]
  simp only [List.flatten_append, List.flatten_cons, getLoop_append, getLoop_none.2 hA, getLoop_none.2 hB]
  simp

/-- Where the loops stop. -/
theorem loops {vt : VTable K V} (k : K) (v : V) (r : Bool) (es : List (K × V)) :
    (∃ xs e ys, es = xs ++ e :: ys ∧ vt.isEqual k e.1 = true ∧
      addLoop vt k v r es = some (if r then (xs ++ (e.1, v) :: ys, true) else (es, false)) ∧
      delLoop vt k es = some (e.2, xs ++ ys)) ∨
    ((∀ e ∈ es, vt.isEqual k e.1 = false) ∧ addLoop vt k v r es = none ∧ delLoop vt k es = none) := by
  induction es with
  | nil => right; simp [addLoop, delLoop]
  | cons a es ih =>
    by_cases h : vt.isEqual k a.1 = true
    · left
      refine ⟨[], a, es, rfl, h, ?_, ?_⟩
      · simp only [addLoop, h, if_true]; cases r <;> simp
      · simp [delLoop, h]
    · have h' : vt.isEqual k a.1 = false := by simpa using h
      rcases ih with ⟨xs, e, ys, rfl, h1, h2, h3⟩ | ⟨h1, h2, h3⟩
      · left
        refine ⟨a :: xs, e, ys, rfl, h1, ?_, ?_⟩
        · simp only [addLoop, h', h2, Bool.false_eq_true, if_false]; cases r <;> simp
        · simp [delLoop, h', h3]
      · right
        refine ⟨?_, by simp [addLoop, h', h2], by simp [delLoop, h', h3]⟩
        intro e he
        rcases List.mem_cons.1 he with rfl | he
        · exact h'
        · exact h1 e he

theorem set_mid (A : List (List (K × V))) (es es' : List (K × V)) (B : List (List (K × V))) :
    (A ++ es :: B).set A.length es' = A ++ es' :: B := by
  rw [List.set_append_right _ _ (Nat.le_refl _)]; simp

theorem home_set {vt : VTable K V} {t : Table K V} (hi : Inv vt t) {A es B} (hc : t.chain = A ++ es :: B) {es'}
    (hes : ∀ e ∈ es', vt.hash e.1 % t.nchains = A.length) :
    ∀ c fs, (A ++ es' :: B)[c]? = some fs → ∀ e ∈ fs, vt.hash e.1 % t.nchains = c := by
  intro c fs hf e he
  by_cases hcA : c = A.length
  · subst hcA
    simp at hf
    subst hf
    exact hes e he
  · refine hi.home c fs ?_ e he
    rw [hc, ← hf]
    rcases Nat.lt_or_ge c A.length with h | h
    · rw [List.getElem?_append_left h, List.getElem?_append_left h]
    · rw [List.getElem?_append_right h, List.getElem?_append_right h]
      obtain ⟨d, hd⟩ : ∃ d, c - A.length = d + 1 := ⟨c - A.length - 1, by omega⟩
      rw [hd]; rfl

theorem u32_succ (n : Nat) : u32 (u32 n + 1) = u32 (n + 1) := by simp only [u32_eq_mod]; omega

theorem u32_pred (n : Nat) : sub32 (u32 (n + 1)) 1 = u32 n := by
  simp only [u32_eq_mod, sub32]
  split <;> omega

/-- `_dom_hash_add` on a key that is not bound. -/
theorem add_new {vt : VTable K V} {t : Table K V} (hi : Inv vt t) (hl : Lawful vt) (k : K) (v : V) (r : Bool)
    (h : getLoop vt k t.chain.flatten = none) :
    ∃ t', add vt t (some k) (some v) r = .ok (t', true) ∧ Inv vt t' ∧ t'.nchains = t.nchains ∧
      (∀ x, getLoop vt x t'.chain.flatten = upd vt (fun x => getLoop vt x t.chain.flatten) k (some v) x) ∧
      t'.chain.flatten.length = t.chain.flatten.length + 1 := by
  obtain ⟨A, es, B, hc, hA, hco, hAn, hBn⟩ := hi.chain_of hl k
  have hno := getLoop_none.1 h
  rw [hc] at hno
  simp only [List.flatten_append, List.flatten_cons] at hno
  rcases loops (vt := vt) k v r es with ⟨xs, e, ys, rfl, h1, _⟩ | ⟨h1, h2, h3⟩
  · exact absurd (hno e (by simp)) (by simp [h1])
  · have hd : Distinct vt (A.flatten ++ (k, v) :: (es ++ B.flatten)) := by
      apply Distinct.put hl
      · have := hi.distinct
        rw [hc] at this
        simpa using this
      · exact hno
    refine ⟨{ t with chain := A ++ ((k, v) :: es) :: B, nentries := u32 (t.nentries + 1) }, ?_, ?_, rfl, ?_, ?_⟩
    · unfold add
      simp only [hco, Out.bind_ok, h2]
      rw [hc, ← hA, set_mid]
    · refine ⟨hi.pos, ?_, ?_, by simpa using hd, ?_⟩
      · have := hi.len; rw [hc] at this; simpa using this
      · apply home_set hi hc
        intro e he
        rcases List.mem_cons.1 he with rfl | he
        · exact hA.symm
        · exact hi.home _ es (by rw [hc]; simp) e he
      · simp only [hi.count, u32_succ, hc]
        simp only [List.flatten_append, List.flatten_cons, List.length_append, List.length_cons]
        congr 1; omega
    · intro x
      have := getLoop_mid hl hd x
      simp only [List.flatten_append, List.flatten_cons, List.cons_append, upd]
      rw [this, hc]
      simp
    · simp only [hc, List.flatten_append, List.flatten_cons, List.length_append, List.length_cons]; omega

/-- `_dom_hash_add` on a bound key. -/
theorem add_old {vt : VTable K V} {t : Table K V} (hi : Inv vt t) (hl : Lawful vt) (k : K) (v : V) (r : Bool) {w : V}
    (h : getLoop vt k t.chain.flatten = some w) :
    ∃ t', add vt t (some k) (some v) r = .ok (t', r) ∧ Inv vt t' ∧ t'.nchains = t.nchains ∧
      (∀ x, getLoop vt x t'.chain.flatten =
        if r then upd vt (fun x => getLoop vt x t.chain.flatten) k (some v) x else getLoop vt x t.chain.flatten) ∧
      t'.chain.flatten.length = t.chain.flatten.length := by
  obtain ⟨A, es, B, hc, hA, hco, hAn, hBn⟩ := hi.chain_of hl k
  rcases loops (vt := vt) k v r es with ⟨xs, e, ys, rfl, h1, h2, h3⟩ | ⟨h1, h2, h3⟩
  swap
  · exfalso
    have : getLoop vt k t.chain.flatten = none := by
      rw [getLoop_none, hc]
      intro a ha
      simp only [List.flatten_append, List.flatten_cons, List.mem_append] at ha
      rcases ha with ha | ha | ha
      · exact hAn a ha
      · exact h1 a ha
      · exact hBn a ha
    rw [this] at h; cases h
  cases r with
  | false =>
    refine ⟨t, ?_, hi, rfl, fun x => by simp, rfl⟩
    unfold add
    simp only [hco, Out.bind_ok, h2, Bool.false_eq_true, if_false]
    rw [← hA]
    congr 2
    obtain ⟨n, c, m⟩ := t
    simp only at hc ⊢
    subst hc
    rw [set_mid]
  | true =>
    have hd0 : Distinct vt ((A.flatten ++ xs) ++ e :: (ys ++ B.flatten)) := by
      have := hi.distinct; rw [hc] at this; simpa using this
    have hd : Distinct vt ((A.flatten ++ xs) ++ (e.1, v) :: (ys ++ B.flatten)) :=
      hd0.drop.put hl (e := (e.1, v)) (hd0.none hl (hl.refl _))
    refine ⟨{ t with chain := A ++ (xs ++ (e.1, v) :: ys) :: B }, ?_, ?_, rfl, ?_, ?_⟩
    · unfold add
      simp only [hco, Out.bind_ok, h2, if_true]
      rw [hc, ← hA, set_mid]
    · refine ⟨hi.pos, ?_, ?_, by simpa using hd, ?_⟩
      · have := hi.len; rw [hc] at this; simpa using this
      · apply home_set hi hc
        have hh := hi.home _ (xs ++ e :: ys) (by rw [hc]; simp : t.chain[A.length]? = _)
        intro a ha
        rcases List.mem_append.1 ha with ha | ha
        · exact hh a (by simp [ha])
        · rcases List.mem_cons.1 ha with rfl | ha
          · exact hh e (by simp)
          · exact hh a (by simp [ha])
      · simp only [hi.count, hc]; simp
    · intro x
      simp only [if_true, upd]
      have g1 := getLoop_mid hl hd x
      have g0 := getLoop_mid hl hd0 x
      rw [hc]
      simp only [List.flatten_append, List.flatten_cons, List.append_assoc, List.cons_append] at g0 g1 ⊢
      rw [g1, g0]
      have : vt.isEqual x e.1 = vt.isEqual x k := by
        rw [Bool.eq_iff_iff]
        exact ⟨fun h => hl.trans h (hl.symm h1), fun h => hl.trans h h1⟩
      rw [this]
      split <;> rfl
    · simp [hc]

/-- `_dom_hash_del`. -/
theorem del_eq {vt : VTable K V} {t : Table K V} (hi : Inv vt t) (hl : Lawful vt) (k : K) :
    ∃ t', del vt t (some k) = .ok (t', getLoop vt k t.chain.flatten) ∧ Inv vt t' ∧ t'.nchains = t.nchains ∧
      (∀ x, getLoop vt x t'.chain.flatten = upd vt (fun x => getLoop vt x t.chain.flatten) k none x) ∧
      t'.chain.flatten.length ≤ t.chain.flatten.length := by
  obtain ⟨A, es, B, hc, hA, hco, hAn, hBn⟩ := hi.chain_of hl k
  by_cases hv : ∃ v : V, True
  swap
  · have hnil : ∀ es : List (K × V), es = [] := by
      intro es; cases es with
      | nil => rfl
      | cons e _ => exact absurd ⟨e.2, trivial⟩ hv
    refine ⟨t, ?_, hi, rfl, ?_, Nat.le_refl _⟩
    · unfold del
      simp only [hco, Out.bind_ok]
      rw [hnil es, hnil t.chain.flatten]
      rfl
    · intro x; rw [hnil t.chain.flatten]; simp [upd, getLoop]
  obtain ⟨v, _⟩ := hv
  rcases loops (vt := vt) k v true es with ⟨xs, e, ys, rfl, h1, h2, h3⟩ | ⟨h1, h2, h3⟩
  · have hd0 : Distinct vt ((A.flatten ++ xs) ++ e :: (ys ++ B.flatten)) := by
      have := hi.distinct; rw [hc] at this; simpa using this
    refine ⟨{ t with chain := A ++ (xs ++ ys) :: B, nentries := sub32 t.nentries 1 }, ?_, ?_, rfl, ?_, ?_⟩
    · unfold del
      simp only [hco, Out.bind_ok, h3]
      have g0 := getLoop_mid hl hd0 k
      rw [h1] at g0
      have : getLoop vt k t.chain.flatten = some e.2 := by rw [hc]; simpa using g0
      rw [this, hc, ← hA, set_mid]
    · refine ⟨hi.pos, ?_, ?_, by simpa using hd0.drop, ?_⟩
      · have := hi.len; rw [hc] at this; simpa using this
      · apply home_set hi hc
        have hh := hi.home _ (xs ++ e :: ys) (by rw [hc]; simp : t.chain[A.length]? = _)
        intro a ha
        rcases List.mem_append.1 ha with ha | ha
        · exact hh a (by simp [ha])
        · exact hh a (by simp [ha])
      · simp only [hi.count, hc, List.flatten_append, List.flatten_cons, List.length_append, List.length_cons]
        rw [show A.flatten.length + (xs.length + (ys.length + 1) + B.flatten.length) =
          (A.flatten.length + (xs.length + ys.length + B.flatten.length)) + 1 by omega, u32_pred]
    · intro x
      simp only [upd]
      have g0 := getLoop_mid hl hd0 x
      have : vt.isEqual x e.1 = vt.isEqual x k := by
        rw [Bool.eq_iff_iff]
        exact ⟨fun h => hl.trans h (hl.symm h1), fun h => hl.trans h h1⟩
      rw [this] at g0
      rw [hc]
      simp only [List.flatten_append, List.flatten_cons, List.append_assoc, List.cons_append] at g0 ⊢
      rw [g0]
      split
      · rename_i hx
        rw [getLoop_none]
        intro a ha
        have := hd0.none hl h1 a (by simpa using ha)
        exact isEqual_false_of hl hx this
      · rfl
    · simp [hc]
  · have hno : getLoop vt k t.chain.flatten = none := by
      rw [getLoop_none, hc]
      intro a ha
      simp only [List.flatten_append, List.flatten_cons, List.mem_append] at ha
      rcases ha with ha | ha | ha
      · exact hAn a ha
      · exact h1 a ha
      · exact hBn a ha
    refine ⟨t, ?_, hi, rfl, ?_, Nat.le_refl _⟩
    · unfold del
      simp only [hco, Out.bind_ok, h3, hno]
    · intro x
      simp only [upd]
      split
      · rename_i hx
        rw [getLoop_none] at hno ⊢
        intro a ha
        exact isEqual_false_of hl hx (hno a ha)
      · rfl

theorem create_inv (vt : VTable K V) {n : Nat} (hn : 0 < n) : Inv vt (create n : Table K V) := by
  have hf : (List.replicate n ([] : List (K × V))).flatten = [] := by simp
  refine ⟨hn, by simp [create], ?_, ?_, ?_⟩
  · intro c es h e he
    simp only [create] at h
    have := List.mem_of_getElem? h
    rw [List.eq_of_mem_replicate this] at he
    cases he
  · show Distinct vt (List.replicate n []).flatten
    rw [hf]; exact List.Pairwise.nil
  · show 0 = u32 (List.replicate n ([] : List (K × V))).flatten.length
    rw [hf]; rfl

/-- One call of the code is one call of the map. -/
theorem step_refines {vt : VTable K V} {t : Table K V} (hi : Inv vt t) (hl : Lawful vt) (m : K → Option V)
    (hm : ∀ k, getLoop vt k t.chain.flatten = m k) (o : Op K V) :
    ∃ t', step vt t o = .ok (t', (specStep vt m o).2) ∧ Inv vt t' ∧
      (∀ k, getLoop vt k t'.chain.flatten = (specStep vt m o).1 k) ∧
      t'.chain.flatten.length ≤ t.chain.flatten.length + 1 := by
  have hm' : (fun x => getLoop vt x t.chain.flatten) = m := funext hm
  cases o with
  | add key value r =>
    cases key with
    | none => exact ⟨t, rfl, hi, hm, by omega⟩
    | some k =>
      cases value with
      | none => exact ⟨t, rfl, hi, hm, by omega⟩
      | some v =>
        cases hk : m k with
        | none =>
          obtain ⟨t', h1, h2, _, h3, h4⟩ := add_new hi hl k v r (by rw [hm, hk])
          refine ⟨t', ?_, h2, ?_, by omega⟩
          · simp only [step, h1, specStep, hk, Out.bind_ok]
          · intro x; rw [h3, hm']; simp only [specStep, hk]
        | some w =>
          obtain ⟨t', h1, h2, _, h3, h4⟩ := add_old hi hl k v r (w := w) (by rw [hm, hk])
          refine ⟨t', ?_, h2, ?_, by omega⟩
          · simp only [step, h1, Out.bind_ok]
            cases r <;> simp only [specStep, hk]
          · intro x
            rw [h3, hm', hm]
            cases r <;> simp [specStep, hk]
  | get key =>
    cases key with
    | none => exact ⟨t, rfl, hi, hm, by omega⟩
    | some k =>
      refine ⟨t, ?_, hi, hm, by omega⟩
      simp only [step, get_eq hi hl, Out.bind_ok, specStep, hm]
  | del key =>
    cases key with
    | none => exact ⟨t, rfl, hi, hm, by omega⟩
    | some k =>
      obtain ⟨t', h1, h2, _, h3, h4⟩ := del_eq hi hl k
      refine ⟨t', ?_, h2, ?_, by omega⟩
      · simp only [step, h1, Out.bind_ok, specStep, hm]
      · intro x; rw [h3, hm']; rfl

theorem run_refines {vt : VTable K V} (hl : Lawful vt) (ops : List (Op K V)) {t : Table K V} (hi : Inv vt t)
    (m : K → Option V) (hm : ∀ k, getLoop vt k t.chain.flatten = m k) :
    ∃ t', run vt t ops = .ok (t', (specRun vt m ops).2) ∧ Inv vt t' ∧
      (∀ k, getLoop vt k t'.chain.flatten = (specRun vt m ops).1 k) ∧
      t'.chain.flatten.length ≤ t.chain.flatten.length + ops.length := by
  induction ops generalizing t m with
  | nil => exact ⟨t, rfl, hi, hm, by simp⟩
  | cons o os ih =>
    obtain ⟨t1, h1, h2, h3, h4⟩ := step_refines hi hl m hm o
    obtain ⟨t2, g1, g2, g3, g4⟩ := ih h2 _ h3
    refine ⟨t2, ?_, g2, g3, by simp only [List.length_cons]; omega⟩
    simp only [run, h1, g1, Out.bind_ok, specRun]

/-- C17, lookup.  Starting from an empty table with any positive number of chains, for every vtable with a lawful
equality and hash, every sequence of calls is answered exactly as by the mathematical map, and afterwards every lookup
returns the binding of that map. -/
theorem C17_refines (vt : VTable K V) (hl : Lawful vt) (n : Nat) (hn : 0 < n) (ops : List (Op K V)) :
    ∃ t, run vt (create n) ops = .ok (t, (specRun vt (fun _ => none) ops).2) ∧
      ∀ k, get vt t (some k) = .ok ((specRun vt (fun _ => none) ops).1 k) := by
  have h0 : ∀ k, getLoop vt k (create n : Table K V).chain.flatten = none := by
    intro k
    rw [show (create n : Table K V).chain.flatten = [] by simp [create]]; rfl
  obtain ⟨t, h1, h2, h3, _⟩ := run_refines hl ops (create_inv vt hn) (fun _ => none) h0
  exact ⟨t, h1, fun k => by rw [get_eq h2 hl, h3]⟩

/-! ## Iteration -/

theorem iterLoop_spec (t : Table K V) (hlen : t.chain.length = t.nchains) (fuel : Nat) (c1 : Option Nat)
    (hf : t.nchains < fuel + incr c1) (hc : incr c1 ≤ t.nchains) :
    (∃ it, iterLoop t fuel c1 = .ok (it, none) ∧ (t.chain.drop (incr c1)).flatten = []) ∨
    (∃ c e es, iterLoop t fuel c1 = .ok ({ c1 := some c, he := e :: es }, some e.1) ∧ c < t.nchains ∧
      (t.chain.drop (incr c1)).flatten = e :: es ++ (t.chain.drop (c + 1)).flatten) := by
  induction fuel generalizing c1 with
  | zero => omega
  | succ fuel ih =>
    simp only [iterLoop]
    by_cases h : incr c1 ≥ t.nchains
    · left
      rw [if_pos h]
      exact ⟨_, rfl, by rw [List.drop_of_length_le (by omega)]; rfl⟩
    · rw [if_neg h]
      have hlt : incr c1 < t.chain.length := by omega
      rw [List.getElem?_eq_getElem hlt]
      rw [List.drop_eq_getElem_cons hlt]
      cases hes : t.chain[incr c1] with
      | nil =>
        rcases ih (some (incr c1)) (by simp only [incr] at *; omega) (by simp only [incr] at *; omega) with
          ⟨it, h1, h2⟩ | ⟨c, e, es, h1, h2, h3⟩
        · left; exact ⟨it, h1, by simpa [incr] using h2⟩
        · right; exact ⟨c, e, es, h1, h2, by simpa [incr] using h3⟩
      | cons e es =>
        right
        exact ⟨incr c1, e, es, rfl, by omega, by simp⟩

/-- What is still to be visited from the contexts `it`. -/
def rest (t : Table K V) (it : Iter K V) : List (K × V) :=
  match it.he with
  | [] => t.chain.flatten
  | _ :: es => es ++ (t.chain.drop (incr it.c1)).flatten

/-- Contexts as they occur during an iteration. -/
def Sane (t : Table K V) (it : Iter K V) : Prop := it.he = [] ∨ incr it.c1 ≤ t.nchains

theorem iterate_spec (t : Table K V) (hlen : t.chain.length = t.nchains) (it : Iter K V) (hs : Sane t it) :
    (∃ it', iterate t it = .ok (it', none) ∧ rest t it = []) ∨
    (∃ it' e, iterate t it = .ok (it', some e.1) ∧ Sane t it' ∧ rest t it = e :: rest t it') := by
  obtain ⟨c1, he⟩ := it
  unfold iterate rest
  match he, hs with
  | [], _ =>
    rcases iterLoop_spec t hlen (t.nchains + 1) none (by simp [incr]) (by simp [incr]) with
      ⟨it, h1, h2⟩ | ⟨c, e, es, h1, h2, h3⟩
    · left; exact ⟨it, h1, by simpa [incr] using h2⟩
    · right
      refine ⟨_, e, h1, .inr (by simp only [incr]; omega), ?_⟩
      simpa [incr] using h3
  | [a], hs =>
    rcases hs with hs | hs
    · cases hs
    rcases iterLoop_spec t hlen (t.nchains + 1) c1 (by omega) hs with
      ⟨it, h1, h2⟩ | ⟨c, e, es, h1, h2, h3⟩
    · left; exact ⟨it, h1, by simpa using h2⟩
    · right
      refine ⟨_, e, h1, .inr (by simp only [incr]; omega), ?_⟩
      simpa [incr] using h3
  | a :: e :: es, hs =>
    rcases hs with hs | hs
    · cases hs
    right
    exact ⟨_, e, rfl, .inr hs, by simp⟩

theorem visits_rest (t : Table K V) (hlen : t.chain.length = t.nchains) (L : List (K × V)) (it : Iter K V) (hs : Sane t it)
    (hL : rest t it = L) : Visits t it (L.map Prod.fst) := by
  induction L generalizing it with
  | nil =>
    rcases iterate_spec t hlen it hs with ⟨it', h1, h2⟩ | ⟨it', e, h1, h2, h3⟩
    · exact .stop h1
    · rw [hL] at h3; cases h3
  | cons a L ih =>
    rcases iterate_spec t hlen it hs with ⟨it', h1, h2⟩ | ⟨it', e, h1, h2, h3⟩
    · rw [hL] at h2; cases h2
    · rw [hL] at h3
      obtain ⟨rfl, h4⟩ := List.cons.inj h3
      exact .next h1 (ih it' h2 h4.symm)

/-- C17, iteration and count.  After any sequence of calls, iterating yields a list of keys and then NULL, such that no
two of these keys are equal and exactly the keys bound by the mathematical map are among them; the entry count is the
number of these keys (fewer than 2^32 calls: the counter is a `uint32_t`). -/
theorem C17_iterate (vt : VTable K V) (hl : Lawful vt) (n : Nat) (hn : 0 < n) (ops : List (Op K V)) :
    ∃ t ks, run vt (create n) ops = .ok (t, (specRun vt (fun _ => none) ops).2) ∧
      Visits t Iter.start ks ∧ ks.Pairwise (fun a b => vt.isEqual a b = false) ∧
      (∀ k, ((specRun vt (fun _ => none) ops).1 k).isSome = true ↔ ∃ k' ∈ ks, vt.isEqual k k' = true) ∧
      (ops.length < 2 ^ 32 → length t = ks.length) := by
  have h0 : (create n : Table K V).chain.flatten = [] := by simp [create]
  obtain ⟨t, h1, h2, h3, h4⟩ := run_refines hl ops (create_inv vt hn) (fun _ => none)
    (fun k => by rw [h0]; rfl)
  refine ⟨t, t.chain.flatten.map Prod.fst, h1, visits_rest t h2.len _ _ (.inl rfl) rfl, ?_, ?_, ?_⟩
  · rw [List.pairwise_map]; exact h2.distinct
  · intro k
    rw [← h3, Option.isSome_iff_ne_none, ne_eq, getLoop_none]
    constructor
    · intro h
      push Not at h
      obtain ⟨e, he, hk⟩ := h
      exact ⟨e.1, List.mem_map_of_mem he, by simpa using hk⟩
    · rintro ⟨k', hk', hk⟩ h
      obtain ⟨e, he, rfl⟩ := List.mem_map.1 hk'
      rw [h e he] at hk; cases hk
  · intro hlt
    rw [length, h2.count, List.length_map]
    apply u32_small
    rw [h0, List.length_nil, Nat.zero_add] at h4
    omega

/-! ## Cloning -/

theorem cloneLoop_spec {vt : VTable K V} (hl : Lawful vt) {t : Table K V} (hi : Inv vt t)
    (hk : ∀ k, ∃ k', vt.cloneKey k = some k' ∧ vt.isEqual k' k = true) (hv : ∀ v, ∃ v', vt.cloneValue v = some v')
    (L done : List (K × V)) (it : Iter K V) (hs : Sane t it) (hL : rest t it = L) (hsplit : t.chain.flatten = done ++ L)
    (ret : Table K V) (hr : Inv vt ret) (hrn : ret.chain.flatten.length = done.length)
    (hg : ∀ x, getLoop vt x ret.chain.flatten = (getLoop vt x done).bind vt.cloneValue) (fuel : Nat) (hf : L.length < fuel) :
    ∃ t', cloneLoop vt t fuel it ret = .ok (some t') ∧ Inv vt t' ∧
      t'.chain.flatten.length = t.chain.flatten.length ∧
      ∀ x, getLoop vt x t'.chain.flatten = (getLoop vt x t.chain.flatten).bind vt.cloneValue := by
  induction L generalizing it done ret fuel with
  | nil =>
    obtain ⟨fuel, rfl⟩ : ∃ f, fuel = f + 1 := ⟨fuel - 1, by simp at hf; omega⟩
    rcases iterate_spec t hi.len it hs with ⟨it', h1, h2⟩ | ⟨it', e, h1, h2, h3⟩
    · refine ⟨ret, ?_, hr, by rw [hrn, hsplit]; simp, ?_⟩
      · simp only [cloneLoop, h1, Out.bind_ok]
      · intro x; rw [hg, hsplit, List.append_nil]
    · rw [hL] at h3; cases h3
  | cons a L ih =>
    obtain ⟨fuel, rfl⟩ : ∃ f, fuel = f + 1 := ⟨fuel - 1, by simp at hf; omega⟩
    rcases iterate_spec t hi.len it hs with ⟨it', h1, h2⟩ | ⟨it', e, h1, h2, h3⟩
    · rw [hL] at h2; cases h2
    rw [hL] at h3
    obtain ⟨rfl, h4⟩ := List.cons.inj h3
    obtain ⟨nk, hnk, hnke⟩ := hk a.1
    obtain ⟨nv, hnv⟩ := hv a.2
    have hd : Distinct vt (done ++ a :: L) := by rw [← hsplit]; exact hi.distinct
    have hget : get vt t (some a.1) = .ok (some a.2) := by
      rw [get_eq hi hl, hsplit, getLoop_mid hl hd, hl.refl]; rfl
    have hnone : getLoop vt nk ret.chain.flatten = none := by
      rw [hg, getLoop_none.2]
      · rfl
      · intro b hb
        exact hd.none hl hnke b (by simp [hb])
    obtain ⟨r', ha1, ha2, _, ha3, ha4⟩ := add_new hr hl nk nv false hnone
    obtain ⟨t', g1, g2, g3, g4⟩ := ih (done ++ [a]) it' h2 h4.symm (by rw [hsplit]; simp) r' ha2
      (by rw [ha4, hrn]; simp)
      (by
        intro x
        rw [ha3]
        have hd' : Distinct vt (done ++ a :: []) := by
          have : Distinct vt ((done ++ [a]) ++ L) := by simpa using hd
          exact (List.pairwise_append.1 this).1
        have h5 := getLoop_mid hl hd' x
        rw [h5]
        have h6 : vt.isEqual x nk = vt.isEqual x a.1 := by
          rw [Bool.eq_iff_iff]
          exact ⟨fun h => hl.trans h hnke, fun h => hl.trans h (hl.symm hnke)⟩
        simp only [upd, h6, List.append_nil]
        split
        · simp [hnv]
        · exact hg x)
      fuel (by simp at hf; omega)
    refine ⟨t', ?_, g2, g3, g4⟩
    simp only [cloneLoop, h1, Out.bind_ok, hnk, hget, hnv, ha1, Bool.true_eq_false, if_false, g1]

/-- C18.  Take the table reached by any sequence of calls.  If the client's clone functions succeed and a cloned key
equals its original, the clone answers every lookup with the clone of the value that the original returns, and has the
same entry count; the original is not touched (`clone` does not return a new state for it). -/
theorem C18_clone (vt : VTable K V) (hl : Lawful vt)
    (hk : ∀ k, ∃ k', vt.cloneKey k = some k' ∧ vt.isEqual k' k = true) (hv : ∀ v, ∃ v', vt.cloneValue v = some v')
    (n : Nat) (hn : 0 < n) (ops : List (Op K V)) (t : Table K V) (as : List (Answer V))
    (hrun : run vt (create n) ops = .ok (t, as)) :
    ∃ t', clone vt t = .ok (some t') ∧ length t' = length t ∧
      ∀ k, ∃ x, get vt t (some k) = .ok x ∧ get vt t' (some k) = .ok (x.bind vt.cloneValue) := by
  obtain ⟨t1, h1, hi, _⟩ := run_refines hl ops (create_inv vt hn) (fun _ => none)
    (fun k => by rw [show (create n : Table K V).chain.flatten = [] by simp [create]]; rfl)
  rw [hrun] at h1
  cases h1
  have hc0 : (create t.nchains : Table K V).chain.flatten = [] := by simp [create]
  obtain ⟨t', g1, g2, g3, g4⟩ := cloneLoop_spec hl hi hk hv t.chain.flatten [] Iter.start (.inl rfl) rfl (by simp)
    (create t.nchains) (create_inv vt hi.pos) (by rw [hc0]) (by intro x; rw [hc0]; rfl)
    ((t.chain.map List.length).sum + 1) (by rw [List.length_flatten]; omega)
  refine ⟨t', g1, by rw [length, length, g2.count, hi.count, g3], ?_⟩
  intro k
  exact ⟨_, get_eq hi hl k, by rw [get_eq g2 hl, g4]⟩

/-- C18, independence.  Whatever is done to the clone afterwards or to the original afterwards, each answers as the
mathematical map that started from the map at the moment of cloning. -/
theorem C18_independent (vt : VTable K V) (hl : Lawful vt)
    (hk : ∀ k, ∃ k', vt.cloneKey k = some k' ∧ vt.isEqual k' k = true) (hv : ∀ v, ∃ v', vt.cloneValue v = some v')
    (n : Nat) (hn : 0 < n) (ops more : List (Op K V)) (t : Table K V) (as : List (Answer V))
    (hrun : run vt (create n) ops = .ok (t, as)) :
    ∃ t' t2, clone vt t = .ok (some t') ∧
      run vt t' more = .ok (t2, (specRun vt (fun k => ((specRun vt (fun _ => none) ops).1 k).bind vt.cloneValue) more).2) := by
  obtain ⟨t1, h1, hi, hm, _⟩ := run_refines hl ops (create_inv vt hn) (fun _ => none)
    (fun k => by rw [show (create n : Table K V).chain.flatten = [] by simp [create]]; rfl)
  rw [hrun] at h1
  cases h1
  have hc0 : (create t.nchains : Table K V).chain.flatten = [] := by simp [create]
  obtain ⟨t', g1, g2, g3, g4⟩ := cloneLoop_spec hl hi hk hv t.chain.flatten [] Iter.start (.inl rfl) rfl (by simp)
    (create t.nchains) (create_inv vt hi.pos) (by rw [hc0]) (by intro x; rw [hc0]; rfl)
    ((t.chain.map List.length).sum + 1) (by rw [List.length_flatten]; omega)
  obtain ⟨t2, k1, _⟩ := run_refines hl more g2
    (fun k => ((specRun vt (fun _ => none) ops).1 k).bind vt.cloneValue) (fun k => by rw [g4, hm])
  exact ⟨t', t2, g1, k1⟩

/-! ## The hypotheses are met -/

/-- Numbers as keys, hash `k % 2` (so that 1 and 3 collide), pointers cloned to themselves. -/
def sample : VTable Nat Nat :=
  { hash := fun k => k % 2, cloneKey := some, cloneValue := fun v => some (v + 100), isEqual := fun a b => a == b }

theorem sample_lawful : Lawful sample :=
  ⟨fun k => by simp [sample], fun h => by simp [sample] at *; exact h.symm,
   fun h g => by simp [sample] at *; exact h.trans g, fun h => by simp [sample] at *; rw [h]⟩

example : (∀ k, ∃ k', sample.cloneKey k = some k' ∧ sample.isEqual k' k = true) ∧ (∀ v, ∃ v', sample.cloneValue v = some v') :=
  ⟨fun k => ⟨k, rfl, by simp [sample]⟩, fun v => ⟨v + 100, rfl⟩⟩

example : (run sample (create 2) [.add (some 1) (some 10) false, .add (some 3) (some 30) false, .add (some 1) (some 11) false,
      .add (some 3) (some 31) true, .add (some 2) (some 20) false, .del (some 1)]).bind
    (fun x => (clone sample x.1).bind fun y => .ok (x.1, y)) =
    .ok ({ nchains := 2, chain := [[(2, 20)], [(3, 31)]], nentries := 2 },
      some { nchains := 2, chain := [[(2, 120)], [(3, 131)]], nentries := 2 }) := by
  decide +kernel

end Dom.Hash
