import Verif.Oom.PropsNodes
import Verif.Names.Props
set_option linter.unusedSimpArgs false
set_option linter.unusedVariables false
/-!
# C100 with the rules for names that the code has

Verif/Oom/Nodes.lean leaves the rules for names open; here they are those of src/utils/validate.c and src/utils/namespace.c, as modelled byte by byte in Verif/Names/Model.lean.
-/
namespace Dom.Oom.Nodes

open Dom.Oom
open Dom.Oom.Chars (Str)
open Dom.Str (DStr utf8)
open Dom.Names

/-- The string with these characters, in UTF-8. -/
def encoded (d : List Nat) : DStr := Str.create (utf8 (d.map Char.ofNat))

/-- `dom_namespaces[DOM_NAMESPACE_SVG]`, src/utils/namespace.c:28. -/
def svgNs : DStr := lit "http://www.w3.org/2000/svg"

/-- The tests for a name without a prefix, src/utils/namespace.c:158-171. -/
def plainTest (q n : DStr) : Bool :=
  if Str.isEqual (some n) (some xmlnsNs) ∧ Str.isEqual (some q) (some xmlnsStr) = false then false
  else if Str.isEqual (some q) (some xmlnsStr) ∧ Str.isEqual (some n) (some xmlnsNs) = false then false
  else true

/-- The tests for a prefix, src/utils/namespace.c:207-228. -/
def prefixTest (p n : DStr) : Bool :=
  if Str.isEqual (some p) (some xmlStr) ∧ Str.isEqual (some n) (some xmlNs) = false then false
  else if Str.isEqual (some p) (some xmlnsStr) ∧ Str.isEqual (some n) (some xmlnsNs) = false then false
  else if Str.isEqual (some n) (some xmlnsNs) ∧ Str.isEqual (some p) (some xmlnsStr) = false then false
  else true

/-- The rules of the code: src/utils/validate.c:131-173 and :223-268, src/utils/namespace.c:129-234, src/html/html_document.c:569. -/
def codeRules : Rules where
  name d := validateName (some (encoded d))
  ncname d := validateNCName (some (encoded d))
  plain q n := plainTest (encoded q) (encoded n)
  pre p n := prefixTest (encoded p) (encoded n)
  svg n := Str.isEqual (some (encoded n)) (some svgNs)

/-! ## Specification -/

/-- **Specification.**  The characters as numbers. -/
def codes (cs : List Char) : List Nat := cs.map Char.toNat

/-- **Specification.**  A string that is not too long for the code's 32-bit lengths. -/
def Short (cs : List Char) : Prop := (utf8 cs).length < 2 ^ 32

/-- **Specification.**  The parts of a name around its first ':' begin with a letter of the fourth edition of XML 1.0 or '_'. -/
def PartsOk (cs : List Char) : Prop := ∀ ps ls, cs = ps ++ [':'] ++ ls → ':' ∉ ps → StartsOk ps ∧ StartsOk ls

/-! ## Proofs -/

theorem encoded_codes (cs : List Char) : encoded (codes cs) = Str.create (utf8 cs) := by
  unfold encoded codes
  rw [List.map_map, show (Char.ofNat ∘ Char.toNat) = id by funext c; exact Char.ofNat_toNat c, List.map_id]

theorem holds_codes {cs : List Char} (h : Short cs) : Dom.Str.Holds (encoded (codes cs)) cs := ⟨by rw [encoded_codes]; rfl, h⟩

theorem Short.left {ps ls : List Char} (h : Short (ps ++ ls)) : Short ps := by
  unfold Short at *
  rw [Str.utf8, List.flatMap_append, List.length_append] at h
  exact Nat.lt_of_le_of_lt (Nat.le_add_right _ _) h

theorem Short.right {ps ls : List Char} (h : Short (ps ++ ls)) : Short ls := by
  unfold Short at *
  rw [Str.utf8, List.flatMap_append, List.length_append] at h
  exact Nat.lt_of_le_of_lt (Nat.le_add_left _ _) h

theorem code_name {cs : List Char} (h : Short cs) : codeRules.name (codes cs) = true ↔ IsName cs := by
  show validateName (some (encoded (codes cs))) = true ↔ _
  rw [C14_name_iff _ (by rw [(holds_codes h).data]; exact h)]
  constructor
  · rintro ⟨ds, e, hn⟩
    rw [(holds_codes h).data] at e
    rw [utf8_inj e]; exact hn
  · intro hn; exact ⟨cs, (holds_codes h).data, hn⟩

theorem code_ncname {cs : List Char} (h : Short cs) : codeRules.ncname (codes cs) = true ↔ IsNCName cs ∧ StartsOk cs := ncname_holds (holds_codes h)

theorem plain_checks (a b : Bool) : (if a = true ∧ b = false then false else if b = true ∧ a = false then false else true) = true ↔ (b = true ↔ a = true) := by
  cases a <;> cases b <;> simp

theorem prefix_checks (a b c d : Bool) : (if a = true ∧ b = false then false else if c = true ∧ d = false then false else if d = true ∧ c = false then false else true) = true ↔
    (a = true → b = true) ∧ (c = true ↔ d = true) := by
  cases a <;> cases b <;> cases c <;> cases d <;> simp

theorem code_plain {cs ns : List Char} (h : Short cs) (hn : Short ns) : codeRules.plain (codes cs) (codes ns) = true ↔ (cs = xmlnsChars ↔ ns = xmlnsNsChars) := by
  show plainTest _ _ = true ↔ _
  unfold plainTest
  rw [plain_checks, isEqual_lit (holds_codes h) xmlnsChars xmlnsStr rfl, isEqual_lit (holds_codes hn) xmlnsNsChars xmlnsNs rfl]

theorem code_pre {ps ns : List Char} (h : Short ps) (hn : Short ns) :
    codeRules.pre (codes ps) (codes ns) = true ↔ (ps = xmlChars → ns = xmlNsChars) ∧ (ps = xmlnsChars ↔ ns = xmlnsNsChars) := by
  show prefixTest _ _ = true ↔ _
  unfold prefixTest
  rw [prefix_checks, isEqual_lit (holds_codes h) xmlChars xmlStr rfl, isEqual_lit (holds_codes hn) xmlNsChars xmlNs rfl,
    isEqual_lit (holds_codes h) xmlnsChars xmlnsStr rfl, isEqual_lit (holds_codes hn) xmlnsNsChars xmlnsNs rfl]

theorem code_svg {ns : List Char} (h : Short ns) : codeRules.svg (codes ns) = true ↔ ns = "http://www.w3.org/2000/svg".toList :=
  isEqual_lit (holds_codes h) _ svgNs rfl

theorem mem_codes {cs : List Char} : 58 ∈ codes cs ↔ ':' ∈ cs := by
  unfold codes
  rw [List.mem_map]
  constructor
  · rintro ⟨c, hc, e⟩
    have : c = ':' := Char.toNat_inj.1 e
    exact this ▸ hc
  · intro h; exact ⟨':', h, rfl⟩

theorem no_colon {ps : List Char} (h : ':' ∉ ps) : ∀ x ∈ codes ps, decide (x ≠ 58) = true := by
  intro x hx
  have : x ≠ 58 := by rintro rfl; exact h (mem_codes.1 hx)
  simpa using this

theorem before_codes {ps ls : List Char} (h : ':' ∉ ps) : before (codes (ps ++ ':' :: ls)) = codes ps := by
  unfold before
  rw [show codes (ps ++ ':' :: ls) = codes ps ++ 58 :: codes ls by simp [codes]]
  rw [List.takeWhile_append_of_pos (no_colon h), List.takeWhile_cons_of_neg (by simp), List.append_nil]

theorem behind_codes {ps ls : List Char} (h : ':' ∉ ps) : behind (codes (ps ++ ':' :: ls)) = codes ls := by
  unfold behind
  rw [show codes (ps ++ ':' :: ls) = codes ps ++ 58 :: codes ls by simp [codes]]
  rw [List.dropWhile_append_of_pos (no_colon h), List.dropWhile_cons_of_neg (by simp)]
  rfl

/-- A name without colon, or the parts around the first one. -/
theorem colon_cases (cs : List Char) : ':' ∉ cs ∨ ∃ ps ls, cs = ps ++ ':' :: ls ∧ ':' ∉ ps := by
  by_cases h : ':' ∈ cs
  · exact Or.inr (List.eq_append_cons_of_mem h |>.imp fun ps h => h.imp fun ls h => h)
  · exact Or.inl h

theorem parts_unique {ps ls ps' ls' : List Char} (h : ':' ∉ ps) (h' : ':' ∉ ps') (e : ps ++ ':' :: ls = ps' ++ [':'] ++ ls') : ps' = ps ∧ ls' = ls := by
  have e' : ps ++ ':' :: ls = ps' ++ ':' :: ls' := by simpa using e
  have e2 := congrArg codes e'
  have hb : codes ps = codes ps' := by rw [← before_codes h (ls := ls), e2, before_codes h']
  have hl : codes ls = codes ls' := by rw [← behind_codes h (ls := ls), e2, behind_codes h']
  have inj : ∀ a b : List Char, codes a = codes b → a = b := fun a b h => (List.map_inj_right (fun _ _ => Char.toNat_inj.1)).1 h
  exact ⟨(inj _ _ hb).symm, (inj _ _ hl).symm⟩

theorem agrees_iff {cs ns : List Char} (h : Short cs) (hn : Short ns) :
    agrees codeRules (codes cs) (some (codes ns)) = true ↔ QNameRules cs ns ∧ PartsOk cs := by
  rcases colon_cases cs with hc | ⟨ps, ls, rfl, hp⟩
  · have h58 : 58 ∉ codes cs := fun h => hc (mem_codes.1 h)
    have hnp : ¬ Prefixed (codes cs) := fun h => h58 h.1
    unfold agrees
    dsimp only
    rw [if_neg hnp, Bool.and_eq_true, code_plain h hn]
    constructor
    · rintro ⟨_, h1⟩
      exact ⟨.inl ⟨hc, h1⟩, fun ps ls e _ => absurd (by rw [e]; simp) hc⟩
    · rintro ⟨h1 | ⟨ps, ls, e, _⟩, _⟩
      · exact ⟨by simpa using h58, h1.2⟩
      · exact absurd (by rw [e]; simp) hc
  · have hps : Short ps := h.left
    have hls : Short ls := Short.right (ps := ps ++ [':']) (by simpa using h)
    have hm : 58 ∈ codes (ps ++ ':' :: ls) := mem_codes.2 (by simp)
    have hr : QNameRules (ps ++ ':' :: ls) ns ∧ PartsOk (ps ++ ':' :: ls) ↔ ((IsNCName ps ∧ StartsOk ps) ∧ (IsNCName ls ∧ StartsOk ls)) ∧
        (ps = xmlChars → ns = xmlNsChars) ∧ (ps = xmlnsChars ↔ ns = xmlnsNsChars) := by
      constructor
      · rintro ⟨⟨h, _⟩ | ⟨ps', ls', h, r1, r2, r3, r4⟩, hk⟩
        · exact absurd (by simp) h
        · obtain ⟨rfl, rfl⟩ := parts_unique hp r1.2 h
          obtain ⟨s1, s2⟩ := hk ps' ls' (by simp) hp
          exact ⟨⟨⟨r1, s1⟩, ⟨r2, s2⟩⟩, r3, r4⟩
      · rintro ⟨⟨⟨r1, s1⟩, ⟨r2, s2⟩⟩, r3, r4⟩
        refine ⟨.inr ⟨ps, ls, by simp, r1, r2, r3, r4⟩, fun ps' ls' e hno => ?_⟩
        obtain ⟨rfl, rfl⟩ := parts_unique hp hno e
        exact ⟨s1, s2⟩
    rw [hr]
    unfold agrees
    dsimp only
    by_cases hpf : Prefixed (codes (ps ++ ':' :: ls))
    · rw [if_pos hpf, before_codes hp, behind_codes hp, Bool.and_eq_true, Bool.and_eq_true, code_ncname hps, code_ncname hls, code_pre hps hn]
    · rw [if_neg hpf]
      have : ps = [] := by
        cases ps with
        | nil => rfl
        | cons c ps => exact absurd ⟨hm, by rw [before_codes hp]; simp [codes]⟩ hpf
      subst this
      constructor
      · intro h'
        rw [Bool.and_eq_true] at h'
        exact absurd hm (by simpa using h'.1)
      · rintro ⟨⟨⟨r1, _⟩, _⟩, _⟩
        exact r1.1.elim

theorem agrees_none {cs : List Char} : agrees codeRules (codes cs) none = true ↔ ∀ ps ls, cs = ps ++ [':'] ++ ls → ':' ∉ ps → ps = [] := by
  unfold agrees
  rw [decide_eq_true_iff]
  rcases colon_cases cs with hc | ⟨ps, ls, rfl, hp⟩
  · have h58 : 58 ∉ codes cs := fun h => hc (mem_codes.1 h)
    exact ⟨fun _ ps ls e _ => absurd (by rw [e]; simp) hc, fun _ h => h58 h.1⟩
  · unfold Prefixed
    rw [before_codes hp]
    constructor
    · intro h ps' ls' e hno
      obtain ⟨rfl, rfl⟩ := parts_unique hp hno e
      cases ps' with
      | nil => rfl
      | cons c ps => exact absurd ⟨mem_codes.2 (by simp), by simp [codes]⟩ h
    · rintro h ⟨_, h2⟩
      rw [h ps ls (by simp) hp] at h2
      exact h2 rfl

/-! ## The theorems -/

/-- **Specification.**  The calls that take an XML name only, with the name. -/
def PlainCall (c : Call) (q : Str) : Prop := c = .element q ∨ c = .attribute q ∨ c = .entityReference q ∨ ∃ d, c = .instruction q d

/-- **Specification.**  The calls that take a namespace and a qualified name. -/
def NsCall (c : Call) (ns : Option Str) (q : Str) : Prop := c = .elementNs ns q ∨ c = .attributeNs ns q

/-- **C100, names.**  With the rules of the code, `createElement`, `createAttribute`, `createEntityReference` and `createProcessingInstruction`, when memory may run out: a node is made exactly if the name
is an XML Name and the request is granted; a name that is none is answered by INVALID_CHARACTER_ERR even without memory; otherwise NO_MEM_ERR. -/
theorem C100_names (c : Call) (q : Str) (hc : PlainCall c q) (cs : List Char) (hq : q.data = codes cs) (hs : Short cs) (m : Mem) (hm : m.Valid)
    (ha : ∀ s, s ∈ args c → m.refs s.addr ≠ 0) :
    ∃ o m', c.run codeRules m = .ok o m' ∧ ((∃ n, o = .ok n) ↔ IsName cs ∧ Granted m.room m.time 1) ∧ (o = .error .invalidCharacter ↔ ¬ IsName cs) ∧
      (o = .error .noMem ↔ IsName cs ∧ ¬ Granted m.room m.time 1) := by
  have hsvg : ¬ Svg codeRules c := by rcases hc with rfl | rfl | rfl | ⟨d, rfl⟩ <;> exact id
  have hv : verdict codeRules c = if codeRules.name q.data then none else some .invalidCharacter := by rcases hc with rfl | rfl | rfl | ⟨d, rfl⟩ <;> rfl
  have hj : judgeCost codeRules c = 0 := by rcases hc with rfl | rfl | rfl | ⟨d, rfl⟩ <;> rfl
  have hk : makeCost c = 1 := by rcases hc with rfl | rfl | rfl | ⟨d, rfl⟩ <;> rfl
  obtain ⟨o, m', e, h⟩ := C100_create_partial codeRules c m hm ha hsvg
  rw [hj, hk, hv, hq] at h
  refine ⟨o, m', e, ?_⟩
  by_cases hn : IsName cs
  · rw [if_pos ((code_name hs).2 hn)] at h
    rcases h with ⟨rfl, _, ⟨_, hg⟩ | ⟨h, _⟩⟩ | ⟨e, h, _⟩ | ⟨n, _, rfl, _, _, hg, _⟩
    · exact ⟨by simp [hn, hg], by simp [hn], by simp [hn, hg]⟩
    · exact absurd rfl h
    · cases h
    · exact ⟨by simp [hn, hg], by simp [hn], by simp [hn, hg]⟩
  · rw [if_neg (fun h => hn ((code_name hs).1 h))] at h
    rcases h with ⟨rfl, _, ⟨h, _⟩ | ⟨_, hg⟩⟩ | ⟨e, h, rfl, _⟩ | ⟨n, h, _⟩
    · cases h
    · exact absurd (granted_zero _ _) hg
    · cases h
      exact ⟨by simp [hn], by simp [hn], by simp [hn]⟩
    · cases h

/-- **C100, qualified names.**  With the rules of the code, `createElementNS` and `createAttributeNS` with a namespace, when memory may run out: what is made has a name that obeys the rules of
Namespaces in XML; a name that obeys them (and whose parts begin with a letter of the fourth edition) is refused for want of memory only. -/
theorem C100_qnames (c : Call) (q n : Str) (hc : NsCall c (some n) q) (cs ns : List Char) (hq : q.data = codes cs) (hn : n.data = codes ns) (hs : Short cs) (hsn : Short ns) (m : Mem)
    (hm : m.Valid) (ha : ∀ s, s ∈ args c → m.refs s.addr ≠ 0) :
    ∃ o m', c.run codeRules m = .ok o m' ∧ ((∃ n, o = .ok n) → IsName cs ∧ QNameRules cs ns ∧ PartsOk cs) ∧ (o = .error .invalidCharacter ↔ ¬ IsName cs) ∧
      (o = .error .namespace → IsName cs ∧ ¬ (QNameRules cs ns ∧ PartsOk cs)) ∧
      (IsName cs → QNameRules cs ns → PartsOk cs → (∃ n, o = .ok n) ∨ (o = .error .noMem ∧ ¬ Granted m.room m.time (judgeCost codeRules c + makeCost c))) := by
  have hsvg : ¬ Svg codeRules c := by rcases hc with rfl | rfl <;> exact id
  have hv : verdict codeRules c = if codeRules.name q.data then if agrees codeRules q.data (some n.data) then none else some .namespace else some .invalidCharacter := by
    rcases hc with rfl | rfl <;> rfl
  have hj0 : codeRules.name q.data = false → judgeCost codeRules c = 0 := by
    intro h
    rcases hc with rfl | rfl <;> simp [judgeCost, h]
  obtain ⟨o, m', e, h⟩ := C100_create_partial codeRules c m hm ha hsvg
  rw [hv] at h
  refine ⟨o, m', e, ?_⟩
  by_cases hN : IsName cs
  · rw [hq, hn, if_pos ((code_name hs).2 hN)] at h
    by_cases hA : QNameRules cs ns ∧ PartsOk cs
    · rw [if_pos ((agrees_iff hs hsn).2 hA)] at h
      rcases h with ⟨rfl, _, ⟨_, hg⟩ | ⟨h, _⟩⟩ | ⟨e, h, _⟩ | ⟨x, _, rfl, _, _, hg, _⟩
      · exact ⟨by simp, by simp [hN], by simp, fun _ _ _ => Or.inr ⟨rfl, hg⟩⟩
      · exact absurd rfl h
      · cases h
      · exact ⟨fun _ => ⟨hN, hA⟩, by simp [hN], by simp, fun _ _ _ => Or.inl ⟨x, rfl⟩⟩
    · rw [if_neg (fun h => hA ((agrees_iff hs hsn).1 h))] at h
      rcases h with ⟨rfl, _, ⟨h, _⟩ | ⟨_, hg⟩⟩ | ⟨e, h, rfl, _⟩ | ⟨x, h, _⟩
      · cases h
      · exact ⟨by simp, by simp [hN], by simp, fun _ h1 h2 => absurd ⟨h1, h2⟩ hA⟩
      · cases h
        exact ⟨by simp, by simp [hN], fun _ => ⟨hN, hA⟩, fun _ h1 h2 => absurd ⟨h1, h2⟩ hA⟩
      · cases h
  · have hf : codeRules.name (codes cs) = false := by
      rw [← Bool.not_eq_true]; exact fun h => hN ((code_name hs).1 h)
    rw [hq] at hj0
    rw [hq, hf, hj0 hf] at h
    rcases h with ⟨rfl, _, ⟨h, _⟩ | ⟨_, hg⟩⟩ | ⟨e, h, rfl, _⟩ | ⟨x, h, _⟩
    · cases h
    · exact absurd (granted_zero _ _) hg
    · cases h
      exact ⟨by simp, by simp [hN], by simp, fun h => absurd h hN⟩
    · cases h

/-- **C100, qualified names without a namespace.**  A node is made exactly if the name is an XML Name without a prefix and the requests are granted (for a name that begins with ':' this is
wrong, see `C16_empty_prefix_violated`). -/
theorem C100_qnames_none (c : Call) (q : Str) (hc : NsCall c none q) (cs : List Char) (hq : q.data = codes cs) (hs : Short cs) (m : Mem)
    (hm : m.Valid) (ha : ∀ s, s ∈ args c → m.refs s.addr ≠ 0) :
    ∃ o m', c.run codeRules m = .ok o m' ∧ (o = .error .invalidCharacter ↔ ¬ IsName cs) ∧
      (o = .error .namespace ↔ IsName cs ∧ ∃ ps ls, cs = ps ++ [':'] ++ ls ∧ ':' ∉ ps ∧ ps ≠ []) ∧
      ((∃ n, o = .ok n) ↔ IsName cs ∧ (∀ ps ls, cs = ps ++ [':'] ++ ls → ':' ∉ ps → ps = []) ∧ Granted m.room m.time (makeCost c)) := by
  have hsvg : ¬ Svg codeRules c := by rcases hc with rfl | rfl <;> exact id
  have hv : verdict codeRules c = if codeRules.name q.data then if agrees codeRules q.data none then none else some .namespace else some .invalidCharacter := by
    rcases hc with rfl | rfl <;> rfl
  have hj : judgeCost codeRules c = 0 := by
    rcases hc with rfl | rfl <;> simp [judgeCost]
  obtain ⟨o, m', e, h⟩ := C100_create_partial codeRules c m hm ha hsvg
  rw [hv, hj, hq, Nat.zero_add] at h
  refine ⟨o, m', e, ?_⟩
  by_cases hN : IsName cs
  · rw [if_pos ((code_name hs).2 hN)] at h
    by_cases hA : ∀ ps ls, cs = ps ++ [':'] ++ ls → ':' ∉ ps → ps = []
    · have hno : ¬ ∃ ps ls, cs = ps ++ [':'] ++ ls ∧ ':' ∉ ps ∧ ps ≠ [] := fun ⟨ps, ls, h1, h2, h3⟩ => h3 (hA ps ls h1 h2)
      rw [if_pos (agrees_none.2 hA)] at h
      rcases h with ⟨rfl, _, ⟨_, hg⟩ | ⟨h, _⟩⟩ | ⟨e, h, _⟩ | ⟨x, _, rfl, _, _, hg, _⟩
      · exact ⟨by simp [hN], ⟨by simp, fun h => absurd h.2 hno⟩, ⟨by simp, fun h => absurd h.2.2 hg⟩⟩
      · exact absurd rfl h
      · cases h
      · exact ⟨by simp [hN], ⟨by simp, fun h => absurd h.2 hno⟩, ⟨fun _ => ⟨hN, hA, hg⟩, fun _ => ⟨x, rfl⟩⟩⟩
    · rw [if_neg (fun h => hA (agrees_none.1 h))] at h
      have hyes : ∃ ps ls, cs = ps ++ [':'] ++ ls ∧ ':' ∉ ps ∧ ps ≠ [] := by
        apply Classical.byContradiction
        intro hno
        exact hA fun ps ls h1 h2 => Classical.byContradiction fun h3 => hno ⟨ps, ls, h1, h2, h3⟩
      rcases h with ⟨rfl, _, ⟨h, _⟩ | ⟨_, hg⟩⟩ | ⟨e, h, rfl, _⟩ | ⟨x, h, _⟩
      · cases h
      · exact absurd (granted_zero _ _) hg
      · cases h
        exact ⟨by simp [hN], ⟨fun _ => ⟨hN, hyes⟩, fun _ => rfl⟩, ⟨by simp, fun h => absurd h.2.1 hA⟩⟩
      · cases h
  · rw [if_neg (fun h => hN ((code_name hs).1 h))] at h
    rcases h with ⟨rfl, _, ⟨h, _⟩ | ⟨_, hg⟩⟩ | ⟨e, h, rfl, _⟩ | ⟨x, h, _⟩
    · cases h
    · exact absurd (granted_zero _ _) hg
    · cases h
      exact ⟨by simp [hN], by simp [hN], by simp [hN]⟩
    · cases h

/-- The rules of this file are those of Verif/Names/Model.lean, which C14 and C16 are about: with a namespace, the same names are accepted. -/
theorem C100_rules_agree (c : Call) (q n : Str) (hc : NsCall c (some n) q) (cs ns : List Char) (hq : q.data = codes cs) (hn : n.data = codes ns) (hs : Short cs) (hsn : Short ns) :
    verdict codeRules c = none ↔ ∃ r, createNamedNS (some (encoded n.data)) (some (encoded q.data)) = .ok r := by
  rw [hq, hn, C16_rules_iff _ _ cs ns (holds_codes hs) (holds_codes hsn)]
  have hv : verdict codeRules c = if codeRules.name q.data then if agrees codeRules q.data (some n.data) then none else some .namespace else some .invalidCharacter := by
    rcases hc with rfl | rfl <;> rfl
  rw [hv, hq, hn]
  by_cases hN : IsName cs
  · rw [if_pos ((code_name hs).2 hN)]
    by_cases hA : QNameRules cs ns ∧ PartsOk cs
    · rw [if_pos ((agrees_iff hs hsn).2 hA)]
      exact ⟨fun _ => ⟨hN, hA⟩, fun _ => rfl⟩
    · rw [if_neg (fun h => hA ((agrees_iff hs hsn).1 h))]
      exact ⟨fun h => (nomatch h), fun h => absurd h.2 hA⟩
  · rw [if_neg (fun h => hN ((code_name hs).1 h))]
    exact ⟨fun h => (nomatch h), fun h => absurd h.1 hN⟩

/-- How a call ends. -/
def ends (c : Call) (k : Nat) : Option (Option Exc) :=
  match c.run codeRules (shop k) with
  | .ok (.ok _) _ => some none
  | .ok (.error e) _ => some (some e)
  | .fault _ => none

/-- With the rules of the code: `a:b` in a namespace is fine, and refused if one request is; without a namespace it is an error; `div` is a name, `n!` is not. -/
theorem C100_names_cases :
    nameAB.data = codes ['a', ':', 'b'] ∧ ends (.elementNs (some spaceN) nameAB) 100 = some none ∧ ends (.elementNs (some spaceN) nameAB) 3 = some (some .noMem) ∧
    ends (.elementNs none nameAB) 100 = some (some .namespace) ∧ ends (.element nameDiv) 100 = some none ∧ ends (.element nameDiv) 0 = some (some .noMem) ∧
    ends (.element { addr := 2, data := [110, 33] }) 0 = some (some .invalidCharacter) := by
  decide +kernel

end Dom.Oom.Nodes
