import Verif.Attr.Violations
import Verif.Names.Props
/-!
# C36, C37: setAttributeNS and removing an attribute through the map
-/
namespace Dom.Attr
set_option linter.unusedSimpArgs false
set_option linter.unusedVariables false

open Dom.Str (DStr Bytes Holds contents)
open Dom.Names (IsName QNameRules StartsOk IsAttrChar)

section
variable {s s' : Mem} {ls ls' : Addr → List Addr} {e a c h : Addr} {el el1 : Elem} {n m : ANode} {x : Cell} {ns : Option DStr} {name : DStr}
  {en : Entry}

theorem name_holds {q : DStr} {cs : List Char} (h : Holds q cs) : Names.validateName (some q) = true ↔ IsName cs := by
  rw [Names.C14_name_iff q (by rw [h.data]; exact h.small)]
  constructor
  · rintro ⟨ds, e, h'⟩
    rw [h.data] at e
    rw [Names.utf8_inj e]; exact h'
  · intro h'; exact ⟨cs, h.data, h'⟩

/-- setAttributeNS checks the name as createAttributeNS does. -/
theorem setAttributeNS_ok {q l : DStr} {p v : Option DStr} (h : Names.createNamedNS ns (some q) = .ok (p, l)) (hp : ns = none → p = none) :
    setAttributeNS e ns q v s = setAttr e ns l v s := by
  have hv : Names.validateName (some q) = true := by
    cases hv : Names.validateName (some q) with
    | true => rfl
    | false => unfold Names.createNamedNS at h; rw [if_pos hv] at h; cases h
  unfold Names.createNamedNS at h
  rw [if_neg (by simp [hv])] at h
  simp only at h
  cases hq : Names.validateQName (some q) ns with
  | exc er => rw [hq] at h; cases h
  | fault f => rw [hq] at h; cases h
  | ok u =>
    rw [hq] at h
    have h : Names.splitQName q = .ok (p, l) := h
    unfold setAttributeNS
    rw [hv, hq, h]
    have hc : (ns.isNone && p.isSome) = false := by
      cases ns with
      | some _ => rfl
      | none => rw [hp rfl]; rfl
    show (throwIf (!true) .invalidCharacter >>= fun _ => (pure () : M Unit) >>= fun _ => liftOut (.ok (p, l)) >>= fun pl =>
      throwIf (ns.isNone && pl.1.isSome) .namespace >>= fun _ => setAttr e ns pl.2 v) s = _
    rw [show (!true) = false from rfl, throwIf_false]
    show (throwIf (ns.isNone && p.isSome) .namespace >>= fun _ => setAttr e ns l v) s = _
    rw [hc, throwIf_false]

/-- C36 with namespaces.  Setting an attribute by a namespace and a qualified name that the rules allow sets the attribute with that namespace and the local
name: it reads as the value, other attributes keep theirs, an attribute there already keeps its place and a new one is appended. -/
theorem C36_set_ns (hI : Inv s ls) (he : s.elems e = some el) (hro : el.ro = false) {nsp q : DStr} {cs nsc : List Char} (hq : Holds q cs)
    (hn : Holds nsp nsc) (hN : IsName cs) (hR : QNameRules cs nsc)
    (hS : ∀ ps ls, cs = ps ++ [':'] ++ ls → ':' ∉ ps → StartsOk ps ∧ StartsOk ls) (hA : ∀ c ∈ cs, IsAttrChar c.toNat) (v : Option DStr) :
    ∃ l lcs, Holds l lcs ∧ ((':' ∉ cs ∧ lcs = cs) ∨ ∃ ps, cs = ps ++ [':'] ++ lcs ∧ ':' ∉ ps) ∧
      ((∀ en n, lookup (view s (ls e)) (some nsp) l = some en → s.attrs en.attr = some n → Writable n) →
        ∃ s' ls' en', setAttributeNS e (some nsp) q v s = .ok s' () ∧ Inv s' ls' ∧
          reading s' (view s' (ls' e)) (some nsp) l = some (some (contents v)) ∧
          (∀ e' ns' name', ¬ (e' = e ∧ Fits ns' name' en') →
            reading s' (view s' (ls' e')) ns' name' = reading s (view s (ls e')) ns' name') ∧
          (match lookup (view s (ls e)) (some nsp) l with
           | some en => en' = en ∧ view s' (ls' e) = view s (ls e)
           | none => en'.name = l ∧ en'.ns = some nsp ∧ view s' (ls' e) = view s (ls e) ++ [en'])) := by
  obtain ⟨⟨p, l⟩, hr⟩ := (Names.C16_rules_iff q nsp cs nsc hq hn).2 ⟨hN, hR, hS⟩
  obtain ⟨_, h1, h2⟩ := Names.C16_rules_partial q nsp cs nsc hq hn hr
  have hset := fun v => setAttributeNS_ok (s := s) (e := e) (v := v) hr (by intro h; cases h)
  have key : ∃ lcs, Holds l lcs ∧ lcs ≠ [] ∧ (∀ c ∈ lcs, c ∈ cs) ∧ ((':' ∉ cs ∧ lcs = cs) ∨ ∃ ps, cs = ps ++ [':'] ++ lcs ∧ ':' ∉ ps) := by
    cases p with
    | none =>
      obtain ⟨rfl, h3⟩ := h1 rfl
      refine ⟨cs, hq, ?_, fun _ h => h, .inl ⟨h3, rfl⟩⟩
      rintro rfl; exact hN
    | some p =>
      obtain ⟨ps, ls, _, k1, k2, k3, _, _, k4⟩ := h2 p rfl
      exact ⟨ls, k1, k4, fun c hc => by rw [k2]; simp [hc], .inr ⟨ps, k2, k3.2⟩⟩
  obtain ⟨lcs, k1, k2, k3, k4⟩ := key
  refine ⟨l, lcs, k1, k4, fun hw => ?_⟩
  have hname : Names.validateAttributeName (some l) = true :=
    (Names.C15_accept_iff l lcs k1).2 ⟨k2, fun c hc => .inl (hA c (k3 c hc))⟩
  obtain ⟨s', ls', en', g1, g2, g3, g4, _, g5⟩ := C36_set hI he hro (some nsp) l v hname hw
  exact ⟨s', ls', en', by rw [hset]; exact g1, g2, g3, g4, g5⟩

/-- C36 with namespaces: a qualified name that is no name or breaks the rules for names and namespaces is refused, and nothing changes. -/
theorem C36_set_ns_refused {nsp q : DStr} {cs nsc : List Char} (hq : Holds q cs) (hn : Holds nsp nsc) (v : Option DStr) :
    (¬ IsName cs → setAttributeNS e (some nsp) q v s = .exc s .invalidCharacter) ∧
    (IsName cs → ¬ QNameRules cs nsc → setAttributeNS e (some nsp) q v s = .exc s .namespace) := by
  constructor
  · intro h
    have hv : Names.validateName (some q) = false := by rw [← Bool.not_eq_true, name_holds hq]; exact h
    unfold setAttributeNS
    rw [hv, show (!false) = true from rfl, throwIf_true]
  · intro hN hR
    have hv := (name_holds hq).2 hN
    have hno : ¬ ∃ r, Names.createNamedNS (some nsp) (some q) = .ok r := fun h => hR ((Names.C16_rules_iff q nsp cs nsc hq hn).1 h).2.1
    have hsp : ∃ r, Names.splitQName q = .ok r := by
      rcases Names.C16_split_lossless q cs hq hN with ⟨_, h⟩ | ⟨p, l, _, _, h, _⟩ <;> exact ⟨_, h⟩
    unfold Names.createNamedNS at hno
    rw [if_neg (by simp [hv])] at hno
    simp only at hno
    have hx : ∃ er, Names.validateQName (some q) (some nsp) = .exc er := by
      have hs' := hsp
      obtain ⟨r, hs'⟩ := hs'
      cases hvq : Names.validateQName (some q) (some nsp) with
      | ok u => rw [hvq] at hno; exact absurd ⟨r, hs'⟩ hno
      | exc er => exact ⟨er, rfl⟩
      | fault f =>
        exfalso
        unfold Names.validateQName at hvq
        simp only [hv, Bool.true_eq_false, if_false, Str.length_holds hq, Out.bind_ok] at hvq
        rcases Names.index_cases hq hN.decodable with ⟨h1, h2⟩ | ⟨ps, ls, h1, rfl, h3, h4⟩
        · rw [h1] at hvq
          simp only [Out.bind_ok, if_true] at hvq
          split_ifs at hvq
        · obtain ⟨p, l, g1, _, g2, _⟩ := Names.split_parts hq
          rw [h1] at hvq
          simp only [Out.bind_ok, h4, if_false, g1, g2] at hvq
          split_ifs at hvq
    obtain ⟨er, hx⟩ := hx
    unfold setAttributeNS
    rw [hv, hx, show (!true) = false from rfl, throwIf_false]
    rfl

/-- C36 without a namespace: a name with a prefix is refused, a name without colon sets the attribute of that name. -/
theorem C36_set_ns_none {q : DStr} {cs : List Char} (hq : Holds q cs) (hN : IsName cs) (v : Option DStr) :
    (':' ∈ cs → setAttributeNS e none q v s = .exc s .namespace) ∧
    (':' ∉ cs → setAttributeNS e none q v s = setAttr e none q v s) := by
  have hv := (name_holds hq).2 hN
  rcases Names.C16_split_lossless q cs hq hN with ⟨hno, hs⟩ | ⟨p, l, ps, ls, hs, hp, _, rfl, hpn⟩
  · refine ⟨fun h => absurd h hno, fun _ => ?_⟩
    refine setAttributeNS_ok (p := none) (l := q) ?_ fun _ => rfl
    unfold Names.createNamedNS Names.validateQName
    simp only [hv, Bool.true_eq_false, if_false, Str.length_holds hq, Out.bind_ok]
    rcases Names.index_cases hq hN.decodable with ⟨h1, _⟩ | ⟨ps, ls, _, rfl, _⟩
    · rw [h1]
      simp only [Out.bind_ok, if_true]
      exact hs
    · exact absurd (by simp) hno
  · refine ⟨fun _ => ?_, fun h => absurd (by simp) h⟩
    have hx : Names.validateQName (some q) none = .exc .namespace ∨ Names.validateQName (some q) none = .ok () := by
      unfold Names.validateQName
      simp only [hv, Bool.true_eq_false, if_false, Str.length_holds hq, Out.bind_ok]
      rcases Names.index_cases hq hN.decodable with ⟨h1, h2⟩ | ⟨ps', ls', h1, _, _, h4⟩
      · exact absurd (by simp) h2
      · rw [h1]
        simp only [Out.bind_ok, h4, if_false]
        split_ifs <;> simp_all
    unfold setAttributeNS
    rw [hv, hs]
    rcases hx with hx | hx
    · rw [hx, show (!true) = false from rfl, throwIf_false]; rfl
    · rw [hx, show (!true) = false from rfl, throwIf_false]; rfl

/-- C37: removing an attribute through the map.  If there is none under that name, the call says so and nothing changes; otherwise it takes the first one
out of the list, leaves the others in their order and on other elements everything as it was, and gives the caller the removed node, which is alive and has no
element. -/
theorem C37_remove_named (hI : Inv s ls) (he : s.elems e = some el) (hro : el.ro = false) (ns : Option DStr) (name : DStr) :
    (match lookup (view s (ls e)) ns name with
     | none => mapRemove e ns name s = .exc s .notFound
     | some en => ∃ s' ls', mapRemove e ns name s = .ok s' en.attr ∧ Inv s' ls' ∧
        view s' (ls' e) = (view s (ls e)).eraseP (fun k => decide (Fits ns name k)) ∧ (∀ j, j ≠ e → view s' (ls' j) = view s (ls j)) ∧
        (∃ n n', s.attrs en.attr = some n ∧ s'.attrs en.attr = some n' ∧ n'.parent = none ∧ valueOf n' = valueOf n ∧ n'.refcnt = n.refcnt + 1) ∧
        ∀ a, a ≠ en.attr → s'.attrs a = s.attrs a) := by
  have h1 := getAttrNode_run (ns := ns) (name := name) hI he
  cases hl : lookup (view s (ls e)) ns name with
  | none =>
    rw [hl] at h1
    unfold mapRemove
    rw [bind_ok h1]; rfl
  | some en =>
    rw [hl] at h1
    obtain ⟨n, hn, hrun⟩ := h1
    have hI1 : Inv (s.setA en.attr { n with refcnt := n.refcnt + 1 }) ls := hI.setA hn rfl
    obtain ⟨s', n1, pre, suf, g1, g2, g3, g4, g5, g6, g7, g8, _⟩ := removeAttr_some (ns := ns) (name := name) (en := en) hI1 he hro hl
    have hn1 : n1 = { n with refcnt := n.refcnt + 1 } := by
      have : (s.setA en.attr { n with refcnt := n.refcnt + 1 }).attrs en.attr = some { n with refcnt := n.refcnt + 1 } := by simp
      rw [this] at g2; injection g2 with g2; exact g2.symm
    have g5 : view s (ls e) = view s pre ++ en :: view s suf := g5
    have g6 : ∀ k ∈ view s pre, ¬ Fits ns name k := g6
    have hfit := (lookup_mem hl).2
    refine ⟨s', _, ?_, g4, ?_, ?_, ⟨n, { settle n1 with parent := none }, hn, ?_, rfl, ?_, ?_⟩, ?_⟩
    · unfold mapRemove
      rw [bind_ok hrun]
      show (removeAttr e ns name >>= fun _ => pure en.attr) _ = _
      rw [bind_ok g1]; rfl
    · rw [g7 e, if_pos rfl, g5, List.eraseP_append_right _ (fun k hk => by simpa using g6 k hk), List.eraseP_cons_of_pos (by simpa using hfit)]
      rfl
    · intro j hj
      rw [g7 j, if_neg hj]; rfl
    · rw [g8]
      simp only [if_true]
      unfold leftover
      rw [if_neg (by rw [hn1]; exact Nat.succ_ne_zero _)]
    · show valueOf (settle n1) = _
      rw [valueOf_settle, hn1]; rfl
    · show (settle n1).refcnt = _
      rw [settle_fields.2.2.2.1, hn1]
    · intro a ha
      rw [g8]
      simp only [if_neg ha]
      simp [Mem.setA, ha]

end

/-! ## Concrete cases and a deviation -/

/-- The namespaced attribute `p:x` is set and read under its namespace and local name, then removed through the map; a second removal finds nothing. -/
example : (runOps [.newElem 0 { owner := 0 }] empty).any (fun s =>
    (do setAttributeNS 0 (some (str "u")) (str "p:x") (some (str "v")); getAttr 0 (some (str "u")) (str "x") : M (Option DStr)) s |>.gives (some (str "v"))) = true ∧
    (runOps [.newElem 0 { owner := 0 }, .set 0 none (str "x") (some (str "v"))] empty).any (fun s =>
      (do let _ ← mapRemove 0 none (str "x"); hasAttr 0 none (str "x") : M Bool) s |>.gives false) = true ∧
    IsName "p:x".toList ∧ QNameRules "p:x".toList ['u'] := by
  refine ⟨by decide +kernel, by decide +kernel, ⟨by decide +kernel, by decide +kernel⟩, .inr ⟨['p'], ['x'], by decide +kernel, ?_, ?_, ?_, ?_⟩⟩
  · exact ⟨⟨by decide +kernel, by decide +kernel⟩, by decide +kernel⟩
  · exact ⟨⟨by decide +kernel, by decide +kernel⟩, by decide +kernel⟩
  · intro h; cases h
  · constructor
    · intro h; cases h
    · intro h
      have := congrArg List.length h
      exact absurd this (by decide +kernel)

/-- The element 0 has one attribute, called "x" without prefix. -/
def nsCheck : Res Unit → Bool
  | .ok s' _ =>
    match (entriesOf s' 0).map Entry.attr with
    | [a] => (match s'.attrs a with | some n => decide (n.pfx = none) && decide (n.name = str "x") | none => false)
    | _ => false
  | _ => false

/-- C60 is false of the code: the name with which an attribute is set is "p:x", the attribute made is called "x". -/
theorem C60_set_ns_violated : ∃ s s' a n, After s ∧ setAttributeNS 0 (some (str "u")) (str "p:x") (some (str "v")) s = .ok s' () ∧
    (entriesOf s' 0).map Entry.attr = [a] ∧ s'.attrs a = some n ∧ n.pfx = none ∧ n.name = str "x" := by
  obtain ⟨s0, g1, g2⟩ := exists_after [.newElem 0 { owner := 0 }]
    (fun s => nsCheck (setAttributeNS 0 (some (str "u")) (str "p:x") (some (str "v")) s)) (by decide +kernel)
  cases hr : setAttributeNS 0 (some (str "u")) (str "p:x") (some (str "v")) s0 with
  | exc _ _ => rw [hr] at g2; cases g2
  | fault _ => rw [hr] at g2; cases g2
  | ok s' u =>
    rw [hr] at g2
    unfold nsCheck at g2
    dsimp only at g2
    cases hm : (entriesOf s' 0).map Entry.attr with
    | nil => rw [hm] at g2; cases g2
    | cons a r =>
      cases r with
      | cons b r => rw [hm] at g2; cases g2
      | nil =>
        rw [hm] at g2
        dsimp only at g2
        cases hn : s'.attrs a with
        | none => rw [hn] at g2; cases g2
        | some n =>
          rw [hn] at g2
          simp only [Bool.and_eq_true, decide_eq_true_eq] at g2
          exact ⟨s0, s', a, n, g1, hr, hm, hn, g2.1, g2.2⟩

end Dom.Attr
