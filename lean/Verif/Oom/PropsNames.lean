import Verif.Oom.PropsParser

/-!
# C88: the strings of the namespace component
-/
namespace Dom.Oom

variable {r : Nat → Nat} {l : List Nat} {m : Mem}

theorem refused_of_not {t : Nat} (h : ¬ Granted m.room m.time t) : ∃ k, k < t ∧ RefusedAt m k := by
  induction t with
  | zero => exact (h (granted_zero _ _)).elim
  | succ t ih =>
    by_cases hg : Granted m.room m.time t
    · refine ⟨t, by omega, hg, ?_⟩
      cases hb : m.room (m.time + t) with
      | false => rfl
      | true => exact (h (granted_add.mpr ⟨hg, granted_one.mpr hb⟩)).elim
    · obtain ⟨k, hk, hr⟩ := ih hg
      exact ⟨k, by omega, hr⟩

theorem refused_unique {j k : Nat} (hj : RefusedAt m j) (hk : RefusedAt m k) : j = k := by
  have h1 := le_refused hj hk.1
  have h2 := le_refused hk hj.1
  omega

/-- A string: the refused request is the last one made. -/
theorem createString_stop (h : Holds r l m) :
    after createString m (fun o m' => m'.room = m.room ∧
      ((∃ k, o = .error .noMem ∧ Holds r l m' ∧ k < 2 ∧ RefusedAt m k ∧ m'.time = m.time + (k + 1)) ∨
       (∃ a, o = .ok a ∧ Holds r (a :: l) m' ∧ Granted m.room m.time 2 ∧ m'.time = m.time + 2))) := by
  unfold createString
  rw [after_bind]
  refine after_mono (malloc_spec h) ?_
  rintro o m1 ⟨hr1, ht1, ⟨rfl, h1, hg⟩ | ⟨a, rfl, h1, hg⟩⟩
  · exact ⟨hr1, Or.inl ⟨0, rfl, h1, by omega, refused_zero hg, by omega⟩⟩
  · dsimp only
    rw [after_bind]
    refine after_mono (ask_spec h1) ?_
    rintro ok m2 ⟨h2, hr2, ht2, hok⟩
    rw [hr1, ht1] at hok
    rw [after_ite]
    split
    · rename_i ht
      refine ⟨hr2.trans hr1, Or.inr ⟨a, rfl, h2, ?_, by omega⟩⟩
      exact (granted_add (a := 1) (b := 1)).mpr ⟨hg, granted_one.mpr (by rw [← hok]; exact ht)⟩
    · rename_i ht
      rw [after_bind]
      refine after_mono (unref_spec h2) ?_
      rintro _ m3 ⟨h3, hr3, ht3⟩
      refine ⟨hr3.trans (hr2.trans hr1), Or.inl ⟨1, rfl, h3, by omega, ⟨hg, ?_⟩, by omega⟩⟩
      rw [← hok]
      cases ok with
      | false => rfl
      | true => exact (ht rfl).elim

/-- The entries of the array that are not `NULL`. -/
def cellsHeld : List Cell → List Nat
  | [] => []
  | .ptr a :: cs => a :: cellsHeld cs
  | _ :: cs => cellsHeld cs

theorem cellsHeld_append : ∀ cs ds : List Cell, cellsHeld (cs ++ ds) = cellsHeld cs ++ cellsHeld ds
  | [], _ => rfl
  | .ptr a :: cs, ds => by
    show a :: cellsHeld (cs ++ ds) = _
    rw [cellsHeld_append cs ds]; rfl
  | .null :: cs, ds => cellsHeld_append cs ds
  | .junk :: cs, ds => cellsHeld_append cs ds

theorem cellsHeld_map : ∀ as : List Nat, cellsHeld (as.map .ptr) = as
  | [] => rfl
  | a :: as => by
    show a :: cellsHeld (as.map .ptr) = _
    rw [cellsHeld_map as]

/-- No entry is unwritten memory: static variables start as `NULL`. -/
def NoJunk (cs : List Cell) : Prop := Cell.junk ∉ cs

theorem unrefCells_gives : ∀ {cs : List Cell}, NoJunk cs → Gives (unrefCells cs) (cellsHeld cs) ()
  | [], _ => gives_pure ()
  | .ptr a :: cs, h =>
    (Frees.one a).gives.bind (f := fun _ => unrefCells cs)
      (unrefCells_gives (cs := cs) fun hh => h (List.mem_cons_of_mem _ hh))
  | .null :: cs, h =>
    (gives_pure ()).bind (f := fun _ => unrefCells cs)
      (unrefCells_gives (cs := cs) fun hh => h (List.mem_cons_of_mem _ hh))
  | .junk :: _, h => (h (List.mem_cons_self ..)).elim

/-- The loop writes new strings over the front of the array. -/
theorem fillSpaces_spec : ∀ (cs : List Cell) {l : List Nat} {m : Mem}, Holds r l m →
    after (fillSpaces cs) m (fun o m' => m'.room = m.room ∧ ∃ (new : List Nat) (old rest : List Cell),
      cs = old ++ rest ∧ new.length = old.length ∧ o.2 = new.map .ptr ++ rest ∧ Holds r (new ++ l) m' ∧
      ((∃ k, o.1 = some .noMem ∧ RefusedAt m k ∧ k < 2 * cs.length ∧ new.length = k / 2 ∧
          m'.time = m.time + (k + 1)) ∨
       (o.1 = none ∧ rest = [] ∧ Granted m.room m.time (2 * cs.length) ∧ m'.time = m.time + 2 * cs.length)))
  | [], l, m, h => ⟨rfl, [], [], [], rfl, rfl, rfl, h, Or.inr ⟨rfl, rfl, granted_zero _ _, rfl⟩⟩
  | c :: cs, l, m, h => by
    unfold fillSpaces
    rw [after_bind]
    refine after_mono (createString_stop h) ?_
    rintro o m1 ⟨hr1, ⟨k, rfl, h1, hk, href, ht1⟩ | ⟨s, rfl, h1, hg, ht1⟩⟩
    · refine ⟨hr1, [], [], c :: cs, rfl, rfl, rfl, h1, Or.inl ⟨k, rfl, href, ?_, ?_, ht1⟩⟩
      · simp only [List.length_cons]; omega
      · show 0 = _; omega
    · dsimp only
      rw [after_bind]
      refine after_mono (fillSpaces_spec cs h1) ?_
      rintro ⟨e, ds⟩ m2 ⟨hr2, new, old, rest, hcs, hlen, hds, h2, hor⟩
      dsimp only at hds hor
      rw [after_pure]
      refine ⟨hr2.trans hr1, s :: new, c :: old, rest, by rw [hcs]; rfl, by simp [hlen], by rw [hds]; rfl,
        h2.perm List.perm_middle, ?_⟩
      rcases hor with ⟨k, rfl, href, hk, hnl, ht2⟩ | ⟨rfl, hrest, hg2, ht2⟩
      · refine Or.inl ⟨2 + k, rfl, refused_shift hr1 ht1 hg href, ?_, ?_, by omega⟩
        · simp only [List.length_cons]; omega
        · simp only [List.length_cons]; omega
      · rw [hr1, ht1] at hg2
        refine Or.inr ⟨rfl, hrest, ?_, ?_⟩
        · rw [show 2 * (c :: cs).length = 2 + 2 * cs.length by simp only [List.length_cons]; omega]
          exact granted_add.mpr ⟨hg, hg2⟩
        · simp only [List.length_cons]; omega

/-- One run of `_dom_namespace_initialise`: either the first refused request is one of its 16, and the strings
made for the array up to then stay in the array; or all is made, and what the array held before is
forgotten. -/
theorem initNames_spec {n : Names} (hx : n.xml = .null) (hy : n.xmlns = .null) (h6 : n.spaces.length = 6)
    (h : Holds r l m) :
    after (initNames n) m (fun o m' => m'.room = m.room ∧ ∃ (new : List Nat) (old rest : List Cell),
      n.spaces = old ++ rest ∧ new.length = old.length ∧ o.2.spaces = new.map .ptr ++ rest ∧
      ((∃ k, o.1 = some .noMem ∧ RefusedAt m k ∧ k < 16 ∧ new.length = (k - 4) / 2 ∧ o.2.xml = .null ∧
          o.2.xmlns = .null ∧ Holds r (new ++ l) m' ∧ m'.time = m.time + (k + 1)) ∨
       (∃ x y, o.1 = none ∧ rest = [] ∧ o.2.xml = .ptr x ∧ o.2.xmlns = .ptr y ∧ Granted m.room m.time 16 ∧
          Holds r (new ++ (y :: x :: l)) m'))) := by
  unfold initNames
  rw [after_bind]
  refine after_mono (createString_stop h) ?_
  rintro o m1 ⟨hr1, ⟨k, rfl, h1, hk, href, ht1⟩ | ⟨x, rfl, h1, hg1, ht1⟩⟩
  · exact ⟨hr1, [], [], n.spaces, rfl, rfl, rfl, Or.inl ⟨k, rfl, href, by omega, by show 0 = _; omega,
      hx, hy, h1, ht1⟩⟩
  dsimp only
  rw [after_bind]
  refine after_mono (createString_stop h1) ?_
  rintro o m2 ⟨hr2, ⟨k, rfl, h2, hk, href, ht2⟩ | ⟨y, rfl, h2, hg2, ht2⟩⟩
  · dsimp only
    rw [after_bind]
    refine after_mono (unref_spec h2) ?_
    rintro _ m3 ⟨h3, hr3, ht3⟩
    exact ⟨hr3.trans (hr2.trans hr1), [], [], n.spaces, rfl, rfl, rfl, Or.inl ⟨2 + k, rfl,
      refused_shift hr1 ht1 hg1 href, by omega, by show 0 = _; omega, rfl, hy, h3, by omega⟩⟩
  dsimp only
  rw [hr1, ht1] at hg2
  have g4 : Granted m.room m.time 4 := (granted_add (a := 2) (b := 2)).mpr ⟨hg1, hg2⟩
  have hr02 : m2.room = m.room := hr2.trans hr1
  have ht02 : m2.time = m.time + 4 := by omega
  rw [after_bind]
  refine after_mono (fillSpaces_spec n.spaces h2) ?_
  rintro ⟨e, ds⟩ m3 ⟨hr3, new, old, rest, hcs, hlen, hds, h3, hor⟩
  dsimp only at hds hor
  rw [h6] at hor
  rcases hor with ⟨k, rfl, href, hk, hnl, ht3⟩ | ⟨rfl, hrest, hg3, ht3⟩
  · dsimp only
    rw [after_bind]
    refine after_mono (unref_spec (a := y) (l := x :: (new ++ l)) (h3.perm (by
      rw [List.perm_iff_count]; intro z
      simp only [List.count_append, List.count_cons]; omega))) ?_
    rintro _ m4 ⟨h4, hr4, ht4⟩
    rw [after_bind]
    refine after_mono (unref_spec h4) ?_
    rintro _ m5 ⟨h5, hr5, ht5⟩
    refine ⟨?_, new, old, rest, hcs, hlen, hds, Or.inl ⟨4 + k, rfl, refused_shift hr02 ht02 g4 href, by omega,
      by omega, rfl, rfl, h5, by omega⟩⟩
    rw [hr5, hr4, hr3, hr02]
  · dsimp only
    rw [hr02, ht02] at hg3
    exact ⟨hr3.trans hr02, new, old, rest, hcs, hlen, hds, Or.inr ⟨x, y, rfl, hrest, rfl, rfl,
      (granted_add (a := 4) (b := 12)).mpr ⟨g4, hg3⟩, h3⟩⟩

theorem finaliseNames_gives {n : Names} (h : NoJunk n.spaces) (hx : n.xml ≠ .junk) (hy : n.xmlns ≠ .junk) :
    Gives (finaliseNames n) (cellsHeld [n.xmlns, n.xml] ++ cellsHeld n.spaces) ({} : Names) := by
  have one : ∀ c : Cell, c ≠ .junk → Gives (unrefCell c) (cellsHeld [c]) () := by
    intro c hc
    cases c with
    | junk => exact (hc rfl).elim
    | null => exact gives_pure ()
    | ptr a => exact (Frees.one a).gives
  have := (one n.xmlns hy).bind (f := fun _ => unrefCell n.xml >>= fun _ => unrefCells n.spaces >>= fun _ => pure ({} : Names))
    ((one n.xml hx).bind ((unrefCells_gives h).bind (gives_pure ({} : Names))))
  refine this.perm ?_
  rw [show [n.xmlns, n.xml] = [n.xmlns] ++ [n.xml] from rfl, cellsHeld_append, List.append_nil,
    List.append_assoc]

theorem noJunk_map (as : List Nat) : NoJunk (as.map .ptr) := by
  intro h
  obtain ⟨a, _, e⟩ := List.mem_map.mp h
  cases e

theorem noJunk_replicate (k : Nat) : NoJunk (List.replicate k .null) := by
  intro h
  have := List.eq_of_mem_replicate h
  cases this

theorem cellsHeld_replicate (k : Nat) : cellsHeld (List.replicate k .null) = [] := by
  induction k with
  | zero => rfl
  | succ k ih => exact ih

/-- What is left of six `NULL` entries once the front was written. -/
theorem rest_null {old rest : List Cell} (h : List.replicate 6 Cell.null = old ++ rest) :
    rest = List.replicate rest.length .null := by
  refine List.eq_replicate_iff.mpr ⟨rfl, fun c hc => ?_⟩
  have : c ∈ List.replicate 6 Cell.null := by rw [h]; exact List.mem_append_right _ hc
  exact List.eq_of_mem_replicate this

/-- **C88 (one try, full claim).**  Whatever requests are refused, the first use of the namespace component
does not run into undefined behaviour.  It succeeds exactly if its 16 requests are granted; otherwise it
returns `DOM_NO_MEM_ERR` and the component counts as unused.  In both cases `dom_namespace_finalise` gives
back all that was taken and brings the component back to its first state.
Missing for the full property: two tries, see `C88_retry_violated`, and the error code,
see `C88_code_violated`. -/
theorem C88_names_partial (m : Mem) (hm : m.Valid) :
    ∃ o n m' m'', useNames {} m = .ok (o, n) m' ∧
      ((o = none ∧ n.Ready ∧ Granted m.room m.time 16) ∨
       (o = some .noMem ∧ ¬ n.Ready ∧ ¬ Granted m.room m.time 16)) ∧
      finaliseNames n m' = .ok {} m'' ∧ m''.refs = m.refs := by
  have hu : useNames {} = initNames {} := rfl
  obtain ⟨⟨o, n⟩, m', e, hr, new, old, rest, hsp, hlen, hn, h⟩ :=
    after_elim (initNames_spec (n := {}) rfl rfl rfl hm.holds)
  have hrest := rest_null hsp
  dsimp only at hn h
  have hj : NoJunk n.spaces := by
    rw [hn, hrest]
    intro hh
    rcases List.mem_append.mp hh with h1 | h1
    · exact noJunk_map _ h1
    · exact noJunk_replicate _ h1
  have hch : cellsHeld n.spaces = new := by
    rw [hn, hrest, cellsHeld_append, cellsHeld_map, cellsHeld_replicate, List.append_nil]
  rcases h with ⟨k, rfl, href, hk, _, hx, hy, hh, _⟩ | ⟨x, y, rfl, _, hx, hy, hg, hh⟩
  · obtain ⟨m'', e', h'⟩ := (finaliseNames_gives hj (by rw [hx]; intro h; cases h) (by rw [hy]; intro h; cases h)).run
      (l := []) (m := m') (r := m.refs) (by
        rw [hx, hy, hch]; exact hh)
    exact ⟨_, n, m', m'', hu ▸ e, Or.inr ⟨rfl, fun hr => hr hx, not_granted href hk⟩, e', h'.refs_eq⟩
  · obtain ⟨m'', e', h'⟩ := (finaliseNames_gives hj (by rw [hx]; intro h; cases h) (by rw [hy]; intro h; cases h)).run
      (l := []) (m := m') (r := m.refs) (by
        rw [hx, hy, hch]
        refine hh.perm ?_
        rw [List.append_nil]
        exact List.perm_append_comm)
    exact ⟨_, n, m', m'', hu ▸ e, Or.inl ⟨rfl, (by show n.xml ≠ .null; rw [hx]; intro h; cases h), hg⟩, e', h'.refs_eq⟩

/-- **C88, violated.**  The first use fails in the array of namespaces (the first refused request is number
`k`, from 6 to 15), and a later use succeeds.  Then the strings made by the first use are lost: after
`dom_namespace_finalise` there are still `(k - 4) / 2` of them. -/
theorem C88_retry_violated (m : Mem) (hm : m.Valid) (k : Nat) (hk : RefusedAt m k) (h6 : 6 ≤ k) (h16 : k < 16)
    (hg : Granted m.room (m.time + (k + 1)) 16) :
    ∃ (n₁ n₂ : Names) (m₁ m₂ m₃ : Mem) (lost : List Nat), useNames {} m = .ok (some .noMem, n₁) m₁ ∧
      useNames n₁ m₁ = .ok (none, n₂) m₂ ∧ finaliseNames n₂ m₂ = .ok {} m₃ ∧
      lost.length = (k - 4) / 2 ∧ 0 < lost.length ∧ ∀ a, m₃.refs a = m.refs a + lost.count a := by
  obtain ⟨⟨o, n₁⟩, m₁, e₁, hr₁, new, old, rest, hsp, hlen, hn, h⟩ :=
    after_elim (initNames_spec (n := {}) rfl rfl rfl hm.holds)
  dsimp only at hn h
  rcases h with ⟨j, rfl, href, hj, hnl, hx, hy, hh, ht⟩ | ⟨x, y, rfl, _, hx, hy, hg', hh⟩
  · have hjk := refused_unique href hk
    subst hjk
    have hl6 : n₁.spaces.length = 6 := by
      have h1 := congrArg List.length hsp
      rw [List.length_append, List.length_replicate] at h1
      rw [hn, List.length_append, List.length_map]; omega
    have hu₂ : useNames n₁ = initNames n₁ := if_pos hx
    obtain ⟨⟨o, n₂⟩, m₂, e₂, hr₂, new₂, old₂, rest₂, hsp₂, hlen₂, hn₂, h₂⟩ :=
      after_elim (initNames_spec hx hy hl6 hh)
    dsimp only at hn₂ h₂
    rw [hr₁, ht] at h₂
    rcases h₂ with ⟨j, _, href₂, hj₂, _⟩ | ⟨x, y, rfl, hrest₂, hx₂, hy₂, _, hh₂⟩
    · have := le_refused href₂ (show Granted m₁.room m₁.time 16 by rw [hr₁, ht]; exact hg)
      omega
    · rw [hrest₂, List.append_nil] at hn₂
      have hj : NoJunk n₂.spaces := by rw [hn₂]; exact noJunk_map _
      obtain ⟨m₃, e₃, h₃⟩ := (finaliseNames_gives hj (by rw [hx₂]; intro h; cases h)
        (by rw [hy₂]; intro h; cases h)).run (l := new) (m := m₂) (r := m.refs) (by
          rw [hx₂, hy₂, hn₂, cellsHeld_map]
          refine hh₂.perm ?_
          rw [List.perm_iff_count]; intro z
          simp only [cellsHeld, List.count_append, List.count_cons, List.count_nil]; omega)
      exact ⟨n₁, n₂, m₁, m₂, m₃, new, e₁, hu₂ ▸ e₂, e₃, hnl, by omega, h₃.refs⟩
  · have := le_refused hk hg'; omega

/-- **C88, violated.**  When the namespace strings cannot be made, `dom_implementation_create_document` reports
`DOM_NAMESPACE_ERR`, for XML and for HTML documents, although no name and no namespace was given: the code that
its documentation keeps for faulty names. -/
theorem C88_code_violated (m : Mem) (hm : m.Valid) (hg : ¬ Granted m.room m.time 16) :
    ∃ n m', newXml {} m = .ok (.error .namespace, n) m' ∧ newHtml {} m = .ok (.error .namespace, n) m' := by
  obtain ⟨o, n, m', _, e, h, _⟩ := C88_names_partial m hm
  rcases h with ⟨_, _, h⟩ | ⟨rfl, _, _⟩
  · exact (hg h).elim
  · exact ⟨n, m', by unfold newXml; rw [bind_ok e]; rfl, by unfold newHtml; rw [bind_ok e]; rfl⟩

/-- The cases exist. -/
theorem C88_cases :
    (∃ n m', useNames {} (tight 16) = .ok (none, n) m' ∧ n.Ready) ∧
    (∃ (n₁ n₂ : Names) (m₁ m₂ m₃ : Mem), useNames {} (tight 14) = .ok (some .noMem, n₁) m₁ ∧
      useNames n₁ m₁ = .ok (none, n₂) m₂ ∧ finaliseNames n₂ m₂ = .ok {} m₃ ∧ m₃.refs ≠ (tight 14).refs) ∧
    (∃ n m', newXml {} (tight 0) = .ok (.error .namespace, n) m') := by
  refine ⟨?_, ?_, ?_⟩
  · obtain ⟨o, n, m', _, e, ⟨rfl, h, _⟩ | ⟨_, _, h⟩, _⟩ := C88_names_partial _ (tight_valid 16)
    · exact ⟨n, m', e, h⟩
    · exact (h (tight_refused 16).1).elim
  · obtain ⟨n₁, n₂, m₁, m₂, m₃, lost, e₁, e₂, e₃, _, hpos, hr⟩ := C88_retry_violated _ (tight_valid 14) 14
      (tight_refused 14) (by omega) (by omega) (fun i _ => by
        show (0 + (14 + 1) + i != 14) = true
        simp only [bne_iff_ne]; omega)
    refine ⟨n₁, n₂, m₁, m₂, m₃, e₁, e₂, e₃, fun h0 => ?_⟩
    cases lost with
    | nil => simp at hpos
    | cons x xs =>
      have := hr x
      rw [h0, List.count_cons_self] at this
      omega
  · obtain ⟨n, m', e, _⟩ := C88_code_violated _ (tight_valid 0) (fun h => by
      have := le_refused (tight_refused 0) h; omega)
    exact ⟨n, m', e⟩

end Dom.Oom
