import Verif.Str.Spec
/-!
# Property C08: white-space stripping and collapsing (`dom_string_whitespace_op`)
-/
namespace Dom.Str

set_option linter.unusedSimpArgs false

theorem isWs_iff (b : UInt8) : isWs b = true ↔ IsSpace b := by
  simp only [isWs, IsSpace, Bool.or_eq_true, beq_iff_eq]
  constructor
  · rintro ((((h | h) | h) | h) | h) <;> simp [h]
  · rintro (h | h | h | h | h) <;> simp [h]

theorem isWs_false (b : UInt8) : isWs b = false ↔ ¬ IsSpace b := by
  rw [← isWs_iff]; simp

theorem head_dropWhile (l : Bytes) (b : UInt8) (h : (l.dropWhile isWs).head? = some b) : isWs b = false := by
  induction l with
  | nil => simp at h
  | cons x xs ih =>
    by_cases hx : isWs x = true
    · rw [List.dropWhile_cons, if_pos hx] at h; exact ih h
    · rw [List.dropWhile_cons, if_neg hx] at h
      simp at h hx
      rw [← h]; exact hx

theorem all_takeWhile (l : Bytes) (b : UInt8) (h : b ∈ l.takeWhile isWs) : isWs b = true := by
  induction l with
  | nil => simp at h
  | cons x xs ih =>
    by_cases hx : isWs x = true
    · rw [List.takeWhile_cons, if_pos hx] at h
      rcases List.mem_cons.mp h with h | h
      · rw [h]; exact hx
      · exact ih h
    · rw [List.takeWhile_cons, if_neg hx] at h; simp at h

theorem dropWhile_strips (l : Bytes) : StripsLeading l (l.dropWhile isWs) :=
  ⟨l.takeWhile isWs, (List.takeWhile_append_dropWhile ..).symm,
    fun b hb => (isWs_iff b).mp (all_takeWhile l b hb), fun b hb => (isWs_false b).mp (head_dropWhile l b hb)⟩

theorem rev_strips (l : Bytes) : StripsTrailing l (l.reverse.dropWhile isWs).reverse := by
  obtain ⟨w, h1, h2, h3⟩ := dropWhile_strips l.reverse
  refine ⟨w.reverse, ?_, fun b hb => h2 b (by simpa using hb), fun b hb => h3 b ?_⟩
  · have := congrArg List.reverse h1
    simpa using this
  · rw [List.getLast?_reverse] at hb; exact hb

theorem wsCopy_collapses (l : Bytes) : Collapses l (wsCopy true l) := by
  fun_induction wsCopy true l with
  | case1 => exact .nil
  | case2 b bs hb ih =>
    simp only [Bool.true_and] at hb
    have e : b :: bs = (b :: bs.takeWhile isWs) ++ bs.dropWhile isWs := by simp
    rw [e]
    refine .run _ _ _ (by simp) ?_ (fun c hc => (isWs_false c).mp (head_dropWhile bs c hc)) ih
    intro c hc
    rcases List.mem_cons.mp hc with h | h
    · rw [h]; exact (isWs_iff b).mp hb
    · exact (isWs_iff c).mp (all_takeWhile bs c h)
  | case3 b bs hb ih =>
    simp only [Bool.true_and, Bool.not_eq_true] at hb
    exact .char _ _ _ ((isWs_false b).mp hb) ih

theorem wsCopy_false (l : Bytes) : wsCopy false l = l := by
  induction l with
  | nil => simp [wsCopy]
  | cons b bs ih => simp [wsCopy, ih]

/-- C08: exactly three stages, in this order — strip leading, collapse runs, strip trailing — each applied iff its
flag is set.  (`StripsLeading`, `Collapses` and `StripsTrailing` each determine their result uniquely, see below.) -/
theorem C08_whitespace_op (s : DStr) (op : WsOp) : ∃ l1 l2,
    (if op.leading then StripsLeading s.data l1 else l1 = s.data) ∧
    (if op.collapse then Collapses l1 l2 else l2 = l1) ∧
    (if op.trailing then StripsTrailing l2 (whitespaceOp s op).data else (whitespaceOp s op).data = l2) ∧
    (whitespaceOp s op).interned = s.interned := by
  refine ⟨if op.leading then s.data.dropWhile isWs else s.data,
    wsCopy op.collapse (if op.leading then s.data.dropWhile isWs else s.data), ?_, ?_, ?_, rfl⟩
  · cases op.leading
    · rfl
    · exact dropWhile_strips _
  · cases op.collapse
    · exact wsCopy_false _
    · exact wsCopy_collapses _
  · unfold whitespaceOp
    cases op.trailing
    · rfl
    · exact rev_strips _

theorem head?_append_of_all {w l : List UInt8} (hw : ∀ b ∈ w, IsSpace b) (hne : w ≠ []) :
    ∃ b, (w ++ l).head? = some b ∧ IsSpace b := by
  cases w with
  | nil => simp at hne
  | cons x xs => exact ⟨x, by simp, hw x (by simp)⟩

/-- The stage specifications are functional: `StripsLeading` determines its result. -/
theorem stripsLeading_unique {l a b : List UInt8} (ha : StripsLeading l a) (hb : StripsLeading l b) : a = b := by
  obtain ⟨w1, h1, s1, n1⟩ := ha
  obtain ⟨w2, h2, s2, n2⟩ := hb
  have e : w1 ++ a = w2 ++ b := h1.symm.trans h2
  clear h1 h2
  induction w1 generalizing w2 with
  | nil =>
    cases w2 with
    | nil => simpa using e
    | cons y ys =>
      simp at e
      exact absurd (s2 y (by simp)) (n1 y (by simp [e]))
  | cons x xs ih =>
    cases w2 with
    | nil =>
      simp at e
      exact absurd (s1 x (by simp)) (n2 x (by simp [← e]))
    | cons y ys =>
      simp only [List.cons_append, List.cons.injEq] at e
      exact ih (fun b hb => s1 b (by simp [hb])) ys (fun b hb => s2 b (by simp [hb])) e.2

/-- `StripsTrailing` determines its result. -/
theorem stripsTrailing_unique {l a b : List UInt8} (ha : StripsTrailing l a) (hb : StripsTrailing l b) : a = b := by
  obtain ⟨w1, h1, s1, n1⟩ := ha
  obtain ⟨w2, h2, s2, n2⟩ := hb
  have : a.reverse = b.reverse := by
    apply stripsLeading_unique (l := l.reverse)
    · exact ⟨w1.reverse, by simp [h1], by simpa using s1, fun b hb => n1 b (by simpa using hb)⟩
    · exact ⟨w2.reverse, by simp [h2], by simpa using s2, fun b hb => n2 b (by simpa using hb)⟩
  simpa using congrArg List.reverse this

/-- What `Collapses` says about its result. -/
theorem collapses_props {l l' : List UInt8} (h : Collapses l l') :
    l'.filter (fun b => !isWs b) = l.filter (fun b => !isWs b) ∧ l'.length ≤ l.length ∧
    (∀ b ∈ l', IsSpace b → b = 32) ∧
    (∀ i b c, l'[i]? = some b → l'[i + 1]? = some c → ¬ (IsSpace b ∧ IsSpace c)) ∧
    (∀ b, l'.head? = some b → ¬ IsSpace b → l.head? = some b) ∧
    (∀ b, l.head? = some b → ¬ IsSpace b → l'.head? = some b) ∧ (l = [] ↔ l' = []) := by
  induction h with
  | nil => simp
  | char b l l' hb hc ih =>
    obtain ⟨i1, i2, i3, i4, _, _, _⟩ := ih
    refine ⟨?_, by simpa using i2, ?_, ?_, by simp, by simp, by simp⟩
    · rw [List.filter_cons, List.filter_cons, i1]
    · intro c hc' hs
      rcases List.mem_cons.mp hc' with h | h
      · subst h; exact absurd hs hb
      · exact i3 c h hs
    · intro i x y hx hy
      cases i with
      | zero => simp at hx; subst hx; exact fun h => hb h.1
      | succ i =>
        simp only [List.getElem?_cons_succ] at hx hy
        exact i4 i x y hx hy
  | run w l l' hne hw hl hc ih =>
    obtain ⟨i1, i2, i3, i4, i5, i6, i7⟩ := ih
    have hsp : isWs 32 = true := by decide
    refine ⟨?_, ?_, ?_, ?_, ?_, ?_, ?_⟩
    · rw [List.filter_append, List.filter_cons]
      have : w.filter (fun b => !isWs b) = [] := by
        rw [List.filter_eq_nil_iff]
        intro b hb
        simp [(isWs_iff b).mpr (hw b hb)]
      rw [this]
      simp [hsp, i1]
    · have : 0 < w.length := List.length_pos_iff.mpr hne
      simp; omega
    · intro c hc' hs
      rcases List.mem_cons.mp hc' with h | h
      · exact h
      · exact i3 c h hs
    · intro i x y hx hy
      cases i with
      | zero =>
        simp only [List.getElem?_cons_succ] at hy
        intro hxy
        have hy' : l'.head? = some y := by rw [← hy]; cases l' <;> simp
        cases l with
        | nil =>
          have := i7.mp rfl
          rw [this] at hy'; simp at hy'
        | cons z zs =>
          have hz := hl z rfl
          have := i6 z rfl hz
          rw [this] at hy'
          injection hy' with e
          rw [e] at hz
          exact hz hxy.2
      | succ i =>
        simp only [List.getElem?_cons_succ] at hx hy
        exact i4 i x y hx hy
    · intro b hb hnb
      simp at hb
      subst hb
      exact absurd (by decide) hnb
    · intro b hb hnb
      obtain ⟨x, hx, hs⟩ := head?_append_of_all (l := l) hw hne
      rw [hx] at hb; injection hb with e; subst e
      exact absurd hs hnb
    · simp [hne]

/-- A collapsed list is a fixed point of collapsing. -/
theorem wsCopy_fixed (l : Bytes) (h1 : ∀ b ∈ l, IsSpace b → b = 32)
    (h2 : ∀ i b c, l[i]? = some b → l[i + 1]? = some c → ¬ (IsSpace b ∧ IsSpace c)) : wsCopy true l = l := by
  induction l with
  | nil => simp [wsCopy]
  | cons b bs ih =>
    have ih' := ih (fun c hc => h1 c (by simp [hc])) (fun i x y hx hy =>
      h2 (i + 1) x y (by simpa using hx) (by simpa using hy))
    by_cases hb : isWs b = true
    · have hb32 := h1 b (by simp) ((isWs_iff b).mp hb)
      have hd : bs.dropWhile isWs = bs := by
        cases bs with
        | nil => rfl
        | cons c cs =>
          have := h2 0 b c (by simp) (by simp)
          have hc : isWs c = false := (isWs_false c).mpr fun hs => this ⟨(isWs_iff b).mp hb, hs⟩
          simp [List.dropWhile_cons, hc]
      rw [wsCopy]
      simp [hb, hd, ih', hb32]
    · rw [wsCopy]; simp [hb, ih']

theorem dropWhile_fixed (l : Bytes) (h : ∀ b, l.head? = some b → ¬ IsSpace b) : l.dropWhile isWs = l := by
  cases l with
  | nil => rfl
  | cons b bs => simp [List.dropWhile_cons, (isWs_false b).mpr (h b rfl)]

theorem strip_props {l l' : List UInt8} (h : StripsTrailing l l') :
    (∀ b ∈ l', b ∈ l) ∧ l'.length ≤ l.length ∧ (∀ (i : Nat) b, l'[i]? = some b → l[i]? = some b) ∧
    (∀ b, l'.head? = some b → l.head? = some b) ∧
    l'.filter (fun b => !isWs b) = l.filter (fun b => !isWs b) := by
  obtain ⟨w, h1, h2, _⟩ := h
  subst h1
  refine ⟨by simp +contextual, by simp, ?_, ?_, ?_⟩
  · intro i b hb
    rw [List.getElem?_append_left (List.getElem?_eq_some_iff.mp hb).1]; exact hb
  · intro b hb; cases l' <;> simp_all
  · have : w.filter (fun b => !isWs b) = [] := by
      rw [List.filter_eq_nil_iff]
      intro b hb
      simp [(isWs_iff b).mpr (h2 b hb)]
    simp [this]

/-- C08: consequences a caller relies on — no leading/trailing white space if stripped, single spaces only if
collapsed, the other bytes untouched and in order, never longer. -/
theorem C08_result (s : DStr) (op : WsOp) :
    let r := (whitespaceOp s op).data
    (op.leading → ∀ b, r.head? = some b → ¬ IsSpace b) ∧
    (op.trailing → ∀ b, r.getLast? = some b → ¬ IsSpace b) ∧
    (op.collapse → (∀ b ∈ r, IsSpace b → b = 32) ∧
      ∀ i b c, r[i]? = some b → r[i + 1]? = some c → ¬ (IsSpace b ∧ IsSpace c)) ∧
    r.filter (fun b => !isWs b) = s.data.filter (fun b => !isWs b) ∧ r.length ≤ s.data.length := by
  obtain ⟨l1, l2, h1, h2, h3, _⟩ := C08_whitespace_op s op
  intro r
  have h3' : (∀ b ∈ r, b ∈ l2) ∧ r.length ≤ l2.length ∧ (∀ (i : Nat) b, r[i]? = some b → l2[i]? = some b) ∧
      (∀ b, r.head? = some b → l2.head? = some b) ∧
      r.filter (fun b => !isWs b) = l2.filter (fun b => !isWs b) := by
    by_cases ht : op.trailing
    · rw [if_pos ht] at h3; exact strip_props h3
    · rw [if_neg ht] at h3
      have : r = l2 := h3
      rw [this]; simp
  have h1' : l1.length ≤ s.data.length ∧
      l1.filter (fun b => !isWs b) = s.data.filter (fun b => !isWs b) ∧
      (op.leading → ∀ b, l1.head? = some b → ¬ IsSpace b) := by
    by_cases hl : op.leading
    · rw [if_pos hl] at h1
      obtain ⟨w, e, hw, hn⟩ := h1
      refine ⟨by rw [e]; simp, ?_, fun _ => hn⟩
      have : w.filter (fun b => !isWs b) = [] := by
        rw [List.filter_eq_nil_iff]
        intro b hb
        simp [(isWs_iff b).mpr (hw b hb)]
      rw [e, List.filter_append, this]; simp
    · rw [if_neg hl] at h1
      subst h1
      exact ⟨Nat.le_refl _, rfl, fun h => absurd h hl⟩
  have h2' : l2.length ≤ l1.length ∧ l2.filter (fun b => !isWs b) = l1.filter (fun b => !isWs b) ∧
      ((∀ b, l1.head? = some b → ¬ IsSpace b) → ∀ b, l2.head? = some b → ¬ IsSpace b) ∧
      (op.collapse → (∀ b ∈ l2, IsSpace b → b = 32) ∧
        ∀ i b c, l2[i]? = some b → l2[i + 1]? = some c → ¬ (IsSpace b ∧ IsSpace c)) := by
    by_cases hc : op.collapse
    · rw [if_pos hc] at h2
      obtain ⟨p1, p2, p3, p4, p5, p6, p7⟩ := collapses_props h2
      refine ⟨p2, p1, ?_, fun _ => ⟨p3, p4⟩⟩
      intro hn b hb
      cases l1 with
      | nil => rw [p7.mp rfl] at hb; simp at hb
      | cons x xs =>
        have := p6 x rfl (hn x rfl)
        rw [this] at hb; injection hb with e
        rw [← e]; exact hn x rfl
    · rw [if_neg hc] at h2
      subst h2
      exact ⟨Nat.le_refl _, rfl, fun h => h, fun h => absurd h hc⟩
  refine ⟨fun hl b hb => h2'.2.2.1 (h1'.2.2 hl) b (h3'.2.2.2.1 b hb), ?_, ?_, ?_, ?_⟩
  · intro ht b hb
    rw [if_pos ht] at h3
    obtain ⟨w, _, _, hn⟩ := h3
    exact hn b hb
  · intro hc
    obtain ⟨a, b⟩ := h2'.2.2.2 hc
    exact ⟨fun x hx => a x (h3'.1 x hx), fun i x y hx hy => b i x y (h3'.2.2.1 i x hx) (h3'.2.2.1 _ y hy)⟩
  · rw [h3'.2.2.2.2, h2'.2.1, h1'.2.1]
  · omega

/-- C08: applying the same operation twice changes nothing more. -/
theorem C08_idempotent (s : DStr) (op : WsOp) : whitespaceOp (whitespaceOp s op) op = whitespaceOp s op := by
  obtain ⟨r1, r2, r3, _, _⟩ := C08_result s op
  generalize hr : whitespaceOp s op = r at *
  have e1 : (if op.leading then r.data.dropWhile isWs else r.data) = r.data := by
    split
    · rename_i h; exact dropWhile_fixed _ (r1 h)
    · rfl
  have e2 : wsCopy op.collapse r.data = r.data := by
    cases hc : op.collapse
    · exact wsCopy_false _
    · obtain ⟨a, b⟩ := r3 hc; exact wsCopy_fixed _ a b
  have e3 : (if op.trailing then (r.data.reverse.dropWhile isWs).reverse else r.data) = r.data := by
    split
    · rename_i h
      rw [dropWhile_fixed]
      · simp
      · intro b hb; exact r2 h b (by simpa using hb)
    · rfl
  conv => lhs; unfold whitespaceOp
  simp only [e1, e2, e3]

example : (whitespaceOp ⟨[32, 9, 97, 10, 13, 98, 32], false⟩ ⟨true, true, true⟩).data = [97, 32, 98] := by
  simp [whitespaceOp, wsCopy, isWs, List.dropWhile]

end Dom.Str
