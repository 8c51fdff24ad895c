import Verif.Tree.WholeText
import Verif.Tree.PropsEvents
/-!
# Reading `textContent`, src/core/node.c:1468-1494 (C30)
-/
namespace Dom.Tree
set_option linter.unusedSimpArgs false

open Dom.Str (DStr)

/-! ## The model -/

/-- Read a node of a memory that is not changed. -/
def rdNode (w : World) (i : NodeId) : Out Node :=
  match w.nodes i with
  | some n => .ok n
  | none => .fault .useAfterFree

/-- One round of the loop: the text collected so far and the text of the child, src/core/node.c:1482-1489.  (`ret` keeps
its value between rounds, but every implementation stores to it, so the round sees only the text of this child.) -/
def contentAdd (str ret : Option DStr) : Out (Option DStr) :=
  match str, ret with
  | none, r => .ok r
  | some s, none => .ok (some s)
  | some s, some t => do
    let u ← Str.concat (some s) (some t)
    pure (some u)

/-- The loop over the children, src/core/node.c:1478-1490; `rec` is the call for the child. -/
def contentLoop (w : World) (rec : NodeId → Out (Option DStr)) : Nat → Option NodeId → Option DStr → Out (Option DStr)
  | _, none, str => .ok str
  | 0, some _, _ => .fault .diverge
  | f + 1, some n, str => do
    let nd ← rdNode w n
    let str' ← (if nd.type = .comment ∨ nd.type = .pi then Out.ok str else do
      let ret ← rec n
      contentAdd str ret)
    contentLoop w rec f nd.next str'

/-- `dom_node_get_text_content`: character data give their data (src/core/characterdata.c:461-465), Document and
DocumentType NULL (src/core/document.c:1256-1263, src/core/document_type.c:306-313), the others
`_dom_node_get_text_content`, src/core/node.c:1468-1494. -/
def textContent (w : World) : Nat → NodeId → Out (Option DStr)
  | 0, _ => .fault .diverge
  | k + 1, x => do
    let n ← rdNode w x
    match n.type with
    | .text | .cdata | .comment => .ok n.value
    | .document | .doctype => .ok none
    | _ => if n.owner.isNone then .fault .assertFail else contentLoop w (textContent w k) (w.fresh + 1) n.first none

/-- `dom_node_get_text_content` on a given memory.  The bound is a device of the model. -/
def getTextContent (w : World) (x : NodeId) : Out (Option DStr) := textContent w (w.fresh + 1) x

/-- The name "#text" of Text nodes, `memo_hash_text` of src/core/document.c. -/
def textName : DStr := Str.create [35, 116, 101, 120, 116]

/-! ## Specification -/

/-- The bytes of a string, none for NULL. -/
def bytesOf (s : Option DStr) : Str.Bytes := (s.map DStr.data).getD []

/-- Text and CDATASection nodes. -/
def holdsText (w : World) (x : NodeId) : Bool :=
  match w.nodes x with
  | some n => n.type = .text || n.type = .cdata
  | none => false

/-- The data of a node. -/
def dataBytes (w : World) (x : NodeId) : Str.Bytes := ((w.nodes x).map fun n => bytesOf n.value).getD []

/-! ## Reading -/

section
variable {w : World} {ch : Children} {x p : NodeId} {n : Node}

theorem contentAdd_ok (a b : Option DStr) : ∃ r, contentAdd a b = .ok r ∧ bytesOf r = bytesOf a ++ bytesOf b ∧
    (a = none → b = none → r = none) := by
  cases a with
  | none => exact ⟨b, rfl, by simp [bytesOf], fun _ h => h⟩
  | some s =>
    cases b with
    | none => exact ⟨some s, rfl, by simp [bytesOf], fun h => by simp at h⟩
    | some t => exact ⟨some (Str.create (s.data ++ t.data)), rfl, by simp [bytesOf, Str.create], fun h => by simp at h⟩

/-- What the recursive call has to give for a child. -/
def TextOfChild (w : World) (order : NodeId → List NodeId) (rec : NodeId → Out (Option DStr)) (c : NodeId) : Prop :=
  ∃ r, rec c = .ok r ∧ bytesOf r = ((order c).filter (holdsText w)).flatMap (dataBytes w) ∧
    ((order c).filter (holdsText w) = [] → r = none)

theorem contentLoop_run (hL : Linked w ch) (hp : w.nodes p = some n) {order : NodeId → List NodeId} {rec : NodeId → Out (Option DStr)}
    (hrec : ∀ c ∈ ch p, ∀ cn, w.nodes c = some cn → cn.type ≠ .comment → cn.type ≠ .pi → TextOfChild w order rec c)
    (hskip : ∀ c ∈ ch p, ∀ cn, w.nodes c = some cn → (cn.type = .comment ∨ cn.type = .pi) → (order c).filter (holdsText w) = []) :
    ∀ (b a : List NodeId) (str : Option DStr) (f : Nat), ch p = a ++ b → b.length ≤ f →
    ∃ r, contentLoop w rec f b.head? str = .ok r ∧
      bytesOf r = bytesOf str ++ ((b.flatMap order).filter (holdsText w)).flatMap (dataBytes w) ∧
      (str = none → (b.flatMap order).filter (holdsText w) = [] → r = none) := by
  intro b
  induction b with
  | nil => intro a str f _ _; exact ⟨str, by cases f <;> rfl, by simp, fun h _ => h⟩
  | cons c b ih =>
    intro a str f hab hf
    cases f with
    | zero => simp at hf
    | succ f =>
      obtain ⟨cn, hcn, _, _, _, hnext⟩ := (hL.loc p n hp).kids a c b hab
      have hc : c ∈ ch p := by simp [hab]
      have hf' : b.length ≤ f := by simpa using hf
      simp only [List.head?_cons, contentLoop, rdNode, hcn, Out.bind_ok, hnext]
      by_cases hs : cn.type = .comment ∨ cn.type = .pi
      · rw [if_pos hs]
        obtain ⟨r, h1, h2, h3⟩ := ih (a ++ [c]) str f (by simp [hab]) hf'
        refine ⟨r, h1, ?_, ?_⟩
        · rw [h2]; simp [hskip c hc cn hcn hs]
        · intro h h'; refine h3 h ?_
          simp only [List.flatMap_cons, List.filter_append, List.append_eq_nil_iff] at h'
          exact h'.2
      · rw [if_neg hs]
        obtain ⟨rc, e1, e2, e3⟩ := hrec c hc cn hcn (fun h => hs (.inl h)) (fun h => hs (.inr h))
        obtain ⟨s', g1, g2, g3⟩ := contentAdd_ok str rc
        obtain ⟨r, h1, h2, h3⟩ := ih (a ++ [c]) s' f (by simp [hab]) hf'
        refine ⟨r, ?_, ?_, ?_⟩
        · rw [e1, Out.bind_ok, g1, Out.bind_ok, h1]
        · rw [h2, g2, e2]; simp
        · intro h h'
          simp only [List.flatMap_cons, List.filter_append, List.append_eq_nil_iff] at h'
          exact h3 (g3 h (e3 h'.1)) h'.2

theorem may_leaf {t u : NodeType} (ht : t ∈ [NodeType.text, .cdata, .comment, .pi, .notation_, .doctype]) : ¬ MayContain t u := by
  intro h
  simp only [List.mem_cons, List.not_mem_nil, or_false] at ht
  rcases ht with h' | h' | h' | h' | h' | h' <;> subst h' <;> cases h <;> simp_all

theorem may_document {t : NodeType} : ¬ MayContain t .document := by
  intro h; cases h <;> simp_all

theorem may_doctype {t : NodeType} (h : MayContain t .doctype) : t = .document := by
  cases h <;> simp_all

theorem leaf_children (hW : Core w ch) (hx : w.nodes x = some n)
    (ht : n.type ∈ [NodeType.text, .cdata, .comment, .pi, .notation_, .doctype]) : ch x = [] := by
  cases h : ch x with
  | nil => rfl
  | cons c r =>
    obtain ⟨cn, hcn, _⟩ := hW.linked.alive_child (p := x) (c := c) (by simp [h])
    exact absurd (hW.types x n c cn hx (by simp [h]) hcn) (may_leaf ht)

theorem textContent_run (hW : Core w ch) {order : NodeId → List NodeId} (ho : DocOrder ch order) :
    ∀ (k : Nat) (x : NodeId) (n : Node), Ht ch k x → w.nodes x = some n →
    n.type ≠ .document → n.type ≠ .doctype → n.type ≠ .comment → TextOfChild w order (textContent w k) x := by
  intro k
  induction k with
  | zero => intro x n h; exact h.elim
  | succ k ih =>
    intro x n hh hx h1 h2 h3
    have hgen : n.type ≠ .text → n.type ≠ .cdata → ∃ r, contentLoop w (textContent w k) (w.fresh + 1) n.first none = .ok r ∧
        bytesOf r = ((order x).filter (holdsText w)).flatMap (dataBytes w) ∧
        ((order x).filter (holdsText w) = [] → r = none) := by
      intro h4 h5
      have hself : holdsText w x = false := by simp [holdsText, hx, h4, h5]
      obtain ⟨r, e1, e2, e3⟩ := contentLoop_run hW.linked hx (order := order) (rec := textContent w k)
        (fun c hc cn hcn g1 g2 => by
          refine ih c cn (hh c hc) hcn ?_ ?_ g1
          · intro h
            have := hW.types x n c cn hx hc hcn
            rw [h] at this
            exact may_document this
          · intro h
            have := hW.types x n c cn hx hc hcn
            rw [h] at this
            exact h1 (may_doctype this))
        (fun c hc cn hcn g => by
          have hl := leaf_children hW hcn (by rcases g with g | g <;> simp [g])
          have hct : holdsText w c = false := by rcases g with g | g <;> simp [holdsText, hcn, g]
          rw [ho c, hl]; simp [hct])
        (ch x) [] none (w.fresh + 1) rfl (Nat.le_succ_of_le (child_length_le hW x))
      have hfirst : n.first = (ch x).head? := by
        obtain ⟨n', hn', h, _⟩ := (hW.linked.loc x n hx).ends
        rw [hx] at hn'; cases hn'; exact h
      rw [hfirst]
      have hsame : (order x).filter (holdsText w) = ((ch x).flatMap order).filter (holdsText w) := by
        rw [ho x]; simp [hself]
      rw [hsame]
      exact ⟨r, e1, by simpa [bytesOf] using e2, e3 rfl⟩
    have hown : n.owner ≠ none := by
      rcases hW.owner x n hx with ⟨d, dn, h, _⟩ | ⟨h, _⟩
      · simp [h]
      · exact absurd h h2
    have hlf : n.type = .text ∨ n.type = .cdata → TextOfChild w order (textContent w (k + 1)) x := by
      intro h
      have hl := leaf_children hW hx (by rcases h with h | h <;> simp [h])
      refine ⟨n.value, ?_, ?_, ?_⟩
      · rcases h with h | h <;> simp [textContent, rdNode, hx, h]
      · rw [ho x, hl]; rcases h with h | h <;> simp [holdsText, dataBytes, hx, h]
      · rw [ho x, hl]; rcases h with h | h <;> simp [holdsText, hx, h]
    unfold TextOfChild
    cases ht : n.type <;> first
      | exact absurd ht h1
      | exact absurd ht h2
      | exact absurd ht h3
      | exact hlf (.inl ht)
      | exact hlf (.inr ht)
      | (simpa [textContent, rdNode, hx, ht, hown] using hgen (by simp [ht]) (by simp [ht]))

/-- C30, reading.  For every node of a well-formed forest that is not a Document, a DocumentType or a Comment, textContent
is the data of all Text and CDATASection nodes of its subtree, in document order; with no such node it is NULL. -/
theorem C30_read (hW : WF w ch) {order : NodeId → List NodeId} (ho : DocOrder ch order) (hx : w.nodes x = some n)
    (h1 : n.type ≠ .document) (h2 : n.type ≠ .doctype) (h3 : n.type ≠ .comment) :
    ∃ r, getTextContent w x = .ok r ∧ bytesOf r = ((order x).filter (holdsText w)).flatMap (dataBytes w) ∧
      ((order x).filter (holdsText w) = [] → r = none) :=
  textContent_run hW.toCore ho _ x n ((hW.ht hx).mono (Nat.le_succ _)) hx h1 h2 h3

/-- C30, reading, the other types: the data of a Comment, NULL for Document and DocumentType. -/
theorem C30_read_other (hx : w.nodes x = some n) :
    (n.type = .comment → getTextContent w x = .ok n.value) ∧
    (n.type = .document ∨ n.type = .doctype → getTextContent w x = .ok none) := by
  constructor
  · intro h; simp [getTextContent, textContent, rdNode, hx, h]
  · rintro (h | h) <;> simp [getTextContent, textContent, rdNode, hx, h]

end

/-! ## A concrete case -/

/-- A document with the element 1 = `<a>x<!--c--><b>y</b>z</a>` (2 "x", 3 the comment, 4 `<b>`, 5 "y", 6 "z"). -/
def contentSample : List Call :=
  [.createDocument, .createNode 0 .element (some (Str.create [97])) none,
   .createNode 0 .text none (some (Str.create [120])), .createNode 0 .comment none (some (Str.create [99])),
   .createNode 0 .element (some (Str.create [98])) none, .createNode 0 .text none (some (Str.create [121])),
   .createNode 0 .text none (some (Str.create [122])),
   .appendChild 0 1, .appendChild 1 2, .appendChild 1 3, .appendChild 1 4, .appendChild 4 5, .appendChild 1 6]

def contentOf (w : World) (x : NodeId) : Out Str.Bytes := (getTextContent w x).bind fun r => .ok (bytesOf r)

/-- The hypotheses of the C30 theorems about reading are met by a reachable memory, with non-trivial content. -/
theorem content_example : ∃ w, Reach (fun w c => c.Ok w) w ∧ contentOf w 1 = .ok [120, 121, 122] ∧ contentOf w 3 = .ok [99] := by
  obtain ⟨w, h1, h2⟩ := exists_ok contentSample (fun w => decide (contentOf w 1 = .ok [120, 121, 122] ∧ contentOf w 3 = .ok [99])) (by decide +kernel)
  exact ⟨w, h1, of_decide_eq_true h2⟩

end Dom.Tree
