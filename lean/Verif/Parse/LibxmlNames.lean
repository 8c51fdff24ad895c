import Verif.Parse.PropsXml
import Verif.Parse.Libxml
/-!
# The names and the attributes given to the libxml2 binding
-/
set_option linter.unusedSimpArgs false
namespace Dom.Libxml
open Dom.Tree
open Dom.Names
open Dom.Str (Bytes DStr Holds utf8)
open Dom.Xml (Short createNamedNS_total)

theorem colon_enc {c : Char} (h : (58 : UInt8) ∈ String.utf8EncodeChar c) : c = ':' := by
  unfold String.utf8EncodeChar at h
  dsimp only at h
  have key : ∀ k : Nat, k < 256 → (58 : UInt8) = UInt8.ofNat k → k = 58 := by
    intro k hk he
    have := congrArg UInt8.toNat he
    simp only [UInt8.toNat_ofNat', Nat.reducePow] at this
    have e : (58 : UInt8).toNat = 58 := rfl
    rw [e, Nat.mod_eq_of_lt hk] at this
    exact this.symm
  split_ifs at h with h1 h2 h3
  · have e : (58 : UInt8) = UInt8.ofNat c.val.toNat := by simpa using h
    have := key _ (by omega) e
    apply Char.ext
    apply UInt32.toNat_inj.1
    rw [this]; rfl
  all_goals
    exfalso
    simp only [List.mem_cons, List.not_mem_nil, or_false] at h
    revert h
    simp only [← UInt8.toNat_inj]
    simp only [UInt8.toNat_add, UInt8.toNat_ofNat', UInt8.toNat_mod, UInt8.reduceToNat]
    omega

theorem colon_utf8 {cs : List Char} (h : ':' ∉ cs) : (58 : UInt8) ∉ utf8 cs := by
  induction cs with
  | nil => simp
  | cons c cs ih =>
    rw [Str.utf8_cons, List.mem_append]
    rintro (h1 | h1)
    · exact h (by rw [colon_enc h1]; simp)
    · exact ih (fun h2 => h (by simp [h2])) h1

theorem cut_unique {a : UInt8} : ∀ {p q x y : Bytes}, a ∉ p → a ∉ q → p ++ a :: x = q ++ a :: y → p = q ∧ x = y := by
  intro p
  induction p with
  | nil =>
    intro q x y _ hq e
    cases q with
    | nil => exact ⟨rfl, by simpa using e⟩
    | cons b q =>
      simp only [List.nil_append, List.cons_append, List.cons.injEq] at e
      exact absurd (by rw [e.1]; simp) hq
  | cons b p ih =>
    intro q x y hp hq e
    cases q with
    | nil =>
      simp only [List.nil_append, List.cons_append, List.cons.injEq] at e
      exact absurd (by rw [e.1]; simp) hp
    | cons c q =>
      simp only [List.cons_append, List.cons.injEq] at e
      obtain ⟨g1, g2⟩ := ih (fun h => hp (by simp [h])) (fun h => hq (by simp [h])) e.2
      exact ⟨by rw [e.1, g1], g2⟩

/-- A name as libxml2 reports it: less than 4 GiB, and no ':' in the local name and the prefix if there is a namespace. -/
def XName.Ok (n : XName) : Prop :=
  match n.ns with
  | none => Short n.name
  | some (p, _) => Short (qname p n.name) ∧ 58 ∉ n.name ∧ ∀ q, p = some q → 58 ∉ q

/-- The namespace of the name. -/
def XName.href (n : XName) : Option Bytes := n.ns.map (·.2)
/-- The prefix of the name. -/
def XName.pfx (n : XName) : Option Bytes := n.ns.bind (·.1)

/-- A name that is accepted is split into the prefix and the local name that libxml2 gave. -/
theorem split_back {u : Bytes} {p : Option Bytes} {name : Bytes} {r : Option DStr × DStr} (hs : Short (qname p name)) (hn : 58 ∉ name) (hp : ∀ q, p = some q → 58 ∉ q)
    (h : createNamedNS (some (Str.create u)) (some (Str.create (qname p name))) = .ok r) : r.1.map (·.data) = p ∧ r.2.data = name := by
  unfold createNamedNS at h
  split_ifs at h with hv
  dsimp only at h
  have hv' : validateName (some (Str.create (qname p name))) = true := by simpa using hv
  obtain ⟨cs, e, hN⟩ := (C14_name_iff (Str.create (qname p name)) hs).1 hv'
  have e' : qname p name = utf8 cs := e
  have hq : Holds (Str.create (qname p name)) cs := ⟨e, by rw [← e]; exact hs⟩
  have hsp : splitQName (Str.create (qname p name)) = .ok r := by
    cases hw : validateQName (some (Str.create (qname p name))) (some (Str.create u)) with
    | ok a => rw [hw] at h; exact h
    | exc a => rw [hw] at h; cases h
    | fault a => rw [hw] at h; cases h
  rcases C16_split_lossless _ cs hq hN with ⟨h1, h2⟩ | ⟨a, b, ps, ls, h1, h2, h3, h4, h5⟩
  · rw [h2] at hsp
    have er : r = (none, Str.create (qname p name)) := by simpa using hsp.symm
    cases p with
    | none => rw [er]; exact ⟨rfl, rfl⟩
    | some q =>
      exfalso
      apply colon_utf8 h1
      rw [← e']
      unfold qname; simp
  · rw [h1] at hsp
    have er : r = (some a, b) := by simpa using hsp.symm
    have hu : qname p name = utf8 ps ++ 58 :: utf8 ls := by
      rw [e', h4]
      simp only [Str.utf8_append, Str.utf8_cons, Str.utf8_nil, List.append_nil, List.append_assoc]
      rfl
    cases p with
    | none =>
      exfalso
      apply hn
      have : name = utf8 ps ++ 58 :: utf8 ls := hu
      rw [this]; simp
    | some q =>
      obtain ⟨g1, g2⟩ := cut_unique (hp q rfl) (colon_utf8 h5) (show q ++ 58 :: name = utf8 ps ++ 58 :: utf8 ls from hu)
      rw [er]
      refine ⟨?_, ?_⟩
      · show some a.data = some q
        rw [h2.1, g1]
      · show b.data = name
        rw [h3.1, g2]

/-- Creating an attribute never crashes, and it gets the names that libxml2 gave. -/
theorem attrName_run {n : XName} (h : n.Ok) : attrName n = .ok (n.href, n.pfx, n.name) ∨ ∃ e, attrName n = .exc e := by
  obtain ⟨ns, name⟩ := n
  cases ns with
  | none =>
    unfold attrName
    dsimp only
    unfold createNamed
    split_ifs
    · exact .inr ⟨_, rfl⟩
    · exact .inl rfl
  | some pu =>
    obtain ⟨p, u⟩ := pu
    obtain ⟨h1, h2, h3⟩ := h
    unfold attrName
    dsimp only at h1 h2 h3 ⊢
    rcases createNamedNS_total (some (Str.create u)) (Str.create (qname p name)) h1 with ⟨r, hr⟩ | ⟨e, he⟩
    · left
      obtain ⟨g1, g2⟩ := split_back h1 h2 h3 hr
      rw [hr]
      show Out.ok (some u, r.1.map (·.data), r.2.data) = _
      rw [g1, g2]; rfl
    · right
      rw [he]; exact ⟨e, rfl⟩

/-- Whether `b`, which comes after `a`, takes the place of `a`: the same local name, and the same namespace or no namespace at `b`. -/
def Clash (a b : XName) : Prop := (b.href = none ∨ a.href = b.href) ∧ a.name = b.name

/-- An entity reference is declared in a DTD where no comment follows the declaration. -/
def Piece.Plain : Piece → Prop
  | .text _ => True
  | .ref _ kids => ∀ k ∈ kids, k = .decl

/-- The piece is not an entity reference. -/
def Piece.IsText : Piece → Prop
  | .text _ => True
  | .ref _ _ => False

/-- The attributes cause no crash: no attribute takes the place of another one, and "class" has a value without entity references. -/
structure Harmless (atts : List XAttr) : Prop where
  names : ∀ a ∈ atts, a.id.Ok
  apart : atts.Pairwise fun a b => ¬ Clash a.id b.id
  plain : ∀ a ∈ atts, ∀ p ∈ a.value, p.Plain
  class_ : ∀ a ∈ atts, a.id.ns = none → a.id.name = classBytes → ∀ p ∈ a.value, p.IsText

/-- What is stored for a piece. -/
def Piece.val : Piece → Val
  | .text s => .text s
  | .ref name _ => .ref name

/-- What is stored for an attribute. -/
def XAttr.stored (a : XAttr) : Stored := ⟨a.id.href, a.id.pfx, a.id.name, a.value.map (·.val)⟩

theorem createNamed_run (d : DStr) : createNamed (some d) = .ok () ∨ createNamed (some d) = .exc .invalidCharacter := by
  unfold createNamed; split_ifs <;> simp

theorem plain_kids {kids : List DtdItem} (h : ∀ k ∈ kids, k = .decl) : kids.any (·.isComment) = false := by
  rw [List.any_eq_false]
  intro k hk
  rw [h k hk]; decide

theorem mirrorValue_run : ∀ {v : List Piece}, (∀ p ∈ v, p.Plain) → mirrorValue v = .ok (v.map (·.val)) ∨ ∃ e, mirrorValue v = .exc e := by
  intro v
  induction v with
  | nil => intro _; exact .inl rfl
  | cons p v ih =>
    intro h
    have hp : mirrorPiece p = .ok p.val ∨ ∃ e, mirrorPiece p = .exc e := by
      cases p with
      | text s => exact .inl rfl
      | ref name kids =>
        unfold mirrorPiece
        dsimp only
        rcases createNamed_run (Str.create name) with h1 | h1
        · left
          rw [h1]
          have := plain_kids (h (.ref name kids) (by simp))
          simp only [Out.bind_ok, this, Bool.false_eq_true, if_false]
          rfl
        · right; rw [h1]; exact ⟨_, rfl⟩
    unfold mirrorValue
    rcases hp with hp | ⟨e, hp⟩
    · rw [hp]
      rcases ih (fun q hq => h q (by simp [hq])) with h1 | ⟨e, h1⟩
      · left; simp only [Out.bind_ok, h1]; rfl
      · right; simp only [Out.bind_ok, h1]; exact ⟨e, rfl⟩
    · right; rw [hp]; exact ⟨e, rfl⟩

theorem setNode_run {l : List Stored} {a : Stored} (hc : a.ns = none → a.name = classBytes → a.value.any (·.isRef) = false) (hf : ∀ b ∈ l, fits a b = false) :
    setNode l a = .ok (l ++ [a]) := by
  unfold setNode
  rw [if_neg (by rintro ⟨h1, h2, h3⟩; rw [hc h1 h2] at h3; cases h3)]
  cases l with
  | nil => rfl
  | cons b l =>
    dsimp only
    rw [hf b (by simp)]
    simp only [Bool.false_eq_true, if_false]
    rw [List.eraseP_of_forall_not (fun c hc => by rw [hf c (by simp [hc])]; simp)]

/-- Harmless attributes are all stored as they are, in order, or one of them is refused. -/
theorem attLoop_run : ∀ {atts : List XAttr}, Harmless atts → ∀ {l : List Stored}, (∀ b ∈ l, ∀ a ∈ atts, fits a.stored b = false) →
    attLoop l atts = .ok (l ++ atts.map (·.stored)) ∨ ∃ e, attLoop l atts = .exc e := by
  intro atts
  induction atts with
  | nil => intro _ l _; left; unfold attLoop; simp
  | cons a as ih =>
    intro H l hl
    obtain ⟨h1, h2, h3, h4⟩ := H
    rw [List.pairwise_cons] at h2
    unfold attLoop
    rcases attrName_run (h1 a (by simp)) with e1 | ⟨e, e1⟩
    · rw [e1]
      rcases mirrorValue_run (h3 a (by simp)) with e2 | ⟨e, e2⟩
      · have e3 : setNode l a.stored = .ok (l ++ [a.stored]) := by
          refine setNode_run ?_ (fun b hb => hl b hb a (by simp))
          intro g1 g2
          have g1' : a.id.ns = none := by
            have : a.id.ns.map (·.2) = none := g1
            simpa using this
          have := h4 a (by simp) g1' g2
          show (a.value.map (·.val)).any (·.isRef) = false
          rw [List.any_map, List.any_eq_false]
          intro p hp
          have hp' := this p hp
          cases p with
          | text s => simp [Piece.val, Val.isRef]
          | ref _ _ => exact hp'.elim
        simp only [Out.bind_ok, e2]
        have e3' : setNode l ⟨a.id.href, a.id.pfx, a.id.name, a.value.map (·.val)⟩ = .ok (l ++ [a.stored]) := e3
        rw [e3']
        simp only [Out.bind_ok]
        rcases ih ⟨fun b hb => h1 b (by simp [hb]), h2.2, fun b hb => h3 b (by simp [hb]), fun b hb => h4 b (by simp [hb])⟩ (l := l ++ [a.stored]) (by
            intro b hb c hc
            rcases List.mem_append.1 hb with hb | hb
            · exact hl b hb c (by simp [hc])
            · have hb' : b = a.stored := by simpa using hb
              rw [hb']
              have := h2.1 c hc
              unfold fits
              rw [decide_eq_false_iff_not]
              exact this) with g | g
        · left; rw [g]; simp
        · right; exact g
      · right; simp only [Out.bind_ok, e2]; exact ⟨e, rfl⟩
    · right; rw [e1]; exact ⟨e, rfl⟩

end Dom.Libxml
