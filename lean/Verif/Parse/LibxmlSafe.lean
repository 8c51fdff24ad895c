import Verif.Parse.LibxmlEffects
/-!
# C81: the libxml2 binding neither crashes nor leaks
-/
set_option linter.unusedSimpArgs false
namespace Dom.Libxml
open Dom.Tree
open Dom.Names
open Dom.Str (Bytes DStr Holds utf8)
open Dom.Xml (Short Base Grown Shaped bump Handed)

variable {w w' w0 : World} {ch ch' ch0 ch1 ch2 : Children} {doc p i j : NodeId} {n cn dn pn : Node} {st st' st1 st2 : St}

/-- The events that libxml2 reports after the start of the document, when `k` elements are open and the last error is one of level `XML_ERR_ERROR` (`stuck`), that cause no crash and no leak:
an error stays the last one; elements that are closed are open; names and attributes cause no crash; a DTD in which an entity is declared that is referred to has no comment after the declaration;
the name of the document type is a Name. -/
def Fair : Nat → Bool → List Event → Prop
  | _, _, [] => True
  | _, _, .startDoc _ :: _ => False
  | k, stuck, .endDoc bad :: es => (stuck = true → bad = true) ∧ Fair k bad es
  | k, stuck, .start n atts bad :: es => (stuck = true → bad = true) ∧ (bad = false → n.Ok ∧ Harmless atts) ∧ Fair (k + 1) bad es
  | k, stuck, .finish bad :: es => (stuck = true → bad = true) ∧ 0 < k ∧ Fair (k - 1) bad es
  | k, stuck, .ref _ kids :: es => (∀ d ∈ kids, d = .decl) ∧ Fair k stuck es
  | k, stuck, .dtd name _ _ :: es => (∃ cs, Holds (Str.create name) cs ∧ IsName cs) ∧ Fair k stuck es
  | k, stuck, .chars _ :: es => Fair k stuck es
  | k, stuck, .cdata _ :: es => Fair k stuck es
  | k, stuck, .comment _ :: es => Fair k stuck es
  | k, stuck, .pi _ _ :: es => Fair k stuck es

/-- The frame is of a node that can take children, or of none, and its children are ones that libxml2 can report. -/
def Frame.Fits (st : St) (f : Frame) : Prop := (∀ p, f.priv = some p → Place st.doc p st.w) ∧ ∀ x ∈ f.kids, x.Fine ∧ x.NoDtd

structure Frames (st : St) : Prop where
  root : ∀ p, st.root.priv = some p → p = st.doc
  rootKids : ∀ x ∈ st.root.kids, x.Fine
  inner : ∀ f ∈ st.inner, f.Fits st

/-- What holds between the events. -/
structure Safe (w0 : World) (ch0 : Children) (st : St) (ch : Children) (k : Nat) (stuck : Bool) : Prop where
  inv : Inv w0 ch0 st ch
  frames : st.err = false → Frames st ∧ st.inner.length = k ∧ (stuck = false → st.root.priv ≠ none ∧ ∀ f ∈ st.inner, f.priv ≠ none)

theorem pending_mem {x : XItem} {kids : List XItem} (h : x ∈ pending kids) : x ∈ kids := by
  unfold pending at h
  rw [List.mem_reverse] at h
  exact List.takeWhile_subset _ h

theorem Frame.Fits.mono {f : Frame} (h : f.Fits st) (hd : st'.doc = st.doc) (hp : ∀ j, Place st.doc j st.w → Place st.doc j st'.w) : f.Fits st' :=
  ⟨fun p e => by rw [hd]; exact hp p (h.1 p e), h.2⟩

theorem place_doc (I : Inv w0 ch0 st ch) : Place st.doc st.doc st.w := by
  obtain ⟨dn, h, _⟩ := I.base.docNode
  exact ⟨Nat.le_refl _, dn, h, .inl rfl⟩

/-- The innermost frame. -/
theorem Frames.top (F : Frames st) (I : Inv w0 ch0 st ch) (hl : st.root.priv ≠ none ∧ ∀ f ∈ st.inner, f.priv ≠ none) :
    ∃ p, st.top.priv = some p ∧ Place st.doc p st.w ∧ ∀ x ∈ st.top.kids, x.Fine ∧ (p = st.doc ∨ x.NoDtd) := by
  unfold St.top
  cases h : st.inner with
  | nil =>
    obtain ⟨p, hp⟩ := Option.ne_none_iff_exists'.1 hl.1
    have e := F.root p hp
    exact ⟨p, hp, by rw [e]; exact place_doc I, fun x hx => ⟨F.rootKids x hx, .inl e⟩⟩
  | cons f fs =>
    have hf : f ∈ st.inner := by rw [h]; simp
    obtain ⟨p, hp⟩ := Option.ne_none_iff_exists'.1 (hl.2 f hf)
    exact ⟨p, hp, (F.inner f hf).1 p hp, fun x hx => ⟨((F.inner f hf).2 x hx).1, .inr ((F.inner f hf).2 x hx).2⟩⟩

/-- An element was opened in libxml2's tree. -/
theorem push_frames (F : Frames st) : Frames (push st) := by
  unfold push St.top St.setTop
  obtain ⟨g1, g2, g3⟩ := F
  obtain ⟨d, w, a, i, e, r, fs⟩ := st
  cases fs with
  | nil =>
    refine ⟨g1, ?_, ?_⟩
    · intro x hx
      rcases List.mem_cons.1 hx with rfl | hx
      · trivial
      · exact g2 x hx
    · intro f hf
      have e : f = ⟨none, []⟩ := by simpa using hf
      rw [e]
      exact ⟨fun _ h => (by cases h), fun x hx => (by cases hx)⟩
  | cons f fs =>
    refine ⟨g1, g2, ?_⟩
    intro f' hf'
    have hf := g3 f (List.mem_cons_self ..)
    rcases List.mem_cons.1 hf' with rfl | h
    · exact ⟨fun _ h => (by cases h), fun x hx => (by cases hx)⟩
    · rcases List.mem_cons.1 h with rfl | h
      · refine ⟨hf.1, ?_⟩
        intro x hx
        rcases List.mem_cons.1 hx with rfl | hx
        · exact ⟨trivial, trivial⟩
        · exact hf.2 x hx
      · exact g3 f' (List.mem_cons_of_mem _ h)

theorem push_facts : (push st).w = st.w ∧ (push st).doc = st.doc ∧ (push st).err = st.err ∧ (push st).atts = st.atts ∧ (push st).ids = st.ids ∧
    (push st).inner.length = st.inner.length + 1 ∧ (push st).root.priv = st.root.priv ∧ (∃ fs, (push st).inner = ⟨none, []⟩ :: fs ∧ fs.map (·.priv) = st.inner.map (·.priv)) := by
  unfold push St.top St.setTop
  obtain ⟨d, w, a, i, e, r, fs⟩ := st
  cases fs with
  | nil => exact ⟨rfl, rfl, rfl, rfl, rfl, rfl, rfl, _, rfl, rfl⟩
  | cons f fs => exact ⟨rfl, rfl, rfl, rfl, rfl, rfl, rfl, _, rfl, rfl⟩

theorem Frames.mono (F : Frames st) (hd : st'.doc = st.doc) (hr : st'.root = st.root) (hi : st'.inner = st.inner) (hp : ∀ j, Place st.doc j st.w → Place st.doc j st'.w) : Frames st' :=
  ⟨by rw [hr, hd]; exact F.root, by rw [hr]; exact F.rootKids, by rw [hi]; exact fun f hf => (F.inner f hf).mono hd hp⟩

/-- A new element is linked to the innermost frame. -/
theorem enter_safe (I : Inv w0 ch0 st ch) (F : Frames st) {fs : List Frame} (hi : st.inner = ⟨none, []⟩ :: fs) (hl : st.root.priv ≠ none ∧ ∀ f ∈ fs, f.priv ≠ none)
    (H : Place st.doc p st.w) {id : XName} {atts : List XAttr} (hn : id.Ok) (ha : Harmless atts) :
    ∃ st' ch', enter st (some p) id atts = .ok st' ∧ Safe w0 ch0 st' ch' st.inner.length false := by
  unfold enter
  by_cases he : st.err = true
  · rw [if_pos he]
    exact ⟨st, ch, rfl, I, fun h => by rw [he] at h; cases h⟩
  · rw [if_neg he]
    have hf : (∃ s, attLoop [] atts = .ok s) ∨ ∃ e, attLoop [] atts = .exc e := by
      rcases attLoop_run ha (l := []) (fun b hb => by cases hb) with h | h
      · exact .inl ⟨_, h⟩
      · exact .inr h
    rcases elem_run I.base I.refs H hn hf with ⟨n, w', ch', _, hnt, _, ⟨s, hs⟩, h, G, B, R⟩ | ⟨w', _, h, hw⟩
    · rw [onTree_ok h]
      have pl : ∀ j, Place st.doc j st.w → Place st.doc j w' := fun j hj => hj.grown I.base.sound.wf.toCore G
      have pe : Place st.doc st.w.fresh w' := by
        obtain ⟨m, h1, h2, _⟩ := G.new
        exact ⟨Nat.le_of_lt I.base.ahead, m, h1, .inr (by rw [Node.data_type h2]; exact hnt)⟩
      refine ⟨_, ch', rfl, ?_, fun _ => ?_⟩
      · unfold entered St.setTop St.top
        rw [hi]
        exact ⟨B, R⟩
      · unfold entered St.setTop St.top
        rw [hi]
        refine ⟨⟨F.root, F.rootKids, ?_⟩, rfl, fun _ => ⟨hl.1, ?_⟩⟩
        · intro f hf
          rcases List.mem_cons.1 hf with rfl | hf
          · refine ⟨?_, fun x hx => by cases hx⟩
            intro q hq
            have e : st.w.fresh = q := by simpa using hq
            rw [← e]; exact pe
          · have := F.inner f (by rw [hi]; exact List.mem_cons_of_mem _ hf)
            exact ⟨fun q hq => pl q (this.1 q hq), this.2⟩
        · intro f hf
          rcases List.mem_cons.1 hf with rfl | hf
          · simp
          · exact hl.2 f hf
    · rw [onTree_ok h]
      exact ⟨_, ch, rfl, I.bump rfl hw, fun h => by cases h⟩

theorem start_safe {k : Nat} {stuck : Bool} (S : Safe w0 ch0 st ch k stuck) {id : XName} {atts : List XAttr} {bad : Bool} (h1 : stuck = true → bad = true)
    (h2 : bad = false → id.Ok ∧ Harmless atts) : ∃ st' ch', step st (.start id atts bad) = .ok st' ∧ Safe w0 ch0 st' ch' (k + 1) bad := by
  show ∃ st' ch', (if st.err = true then Out.ok st else startElem st id atts bad) = .ok st' ∧ _
  by_cases he : st.err = true
  · rw [if_pos he]
    exact ⟨st, ch, rfl, S.inv, fun h => by rw [he] at h; cases h⟩
  · rw [if_neg he]
    have he' : st.err = false := by simpa using he
    obtain ⟨F, hk, hl⟩ := S.frames he'
    obtain ⟨q1, q2, q3, q4, q5, q6, q7, fs, q8, q9⟩ := push_facts (st := st)
    have Fp := push_frames F
    have Ip : Inv w0 ch0 (push st) ch := S.inv.same q1 q2
    unfold startElem
    cases bad with
    | true =>
      rw [if_pos rfl]
      exact ⟨_, ch, rfl, Ip, fun _ => ⟨Fp, by rw [q6, hk], fun h => by cases h⟩⟩
    | false =>
      rw [if_neg (by decide)]
      have hs : stuck = false := by cases stuck with
        | false => rfl
        | true => exact absurd (h1 rfl) (by decide)
      have hl' := hl hs
      obtain ⟨p, hp, H, hx⟩ := F.top S.inv hl'
      rw [hp]
      obtain ⟨st1, ch1, g1, I1, g2, g3, g4, g5⟩ := mirror_safe (p := p) Ip (by rw [q1, q2]; exact H) (xs := pending st.top.kids) (fun x hx' => by rw [q2]; exact hx x (pending_mem hx'))
      rw [g1]
      simp only [Out.bind_ok]
      have hfs : ∀ f ∈ fs, f.priv ≠ none := by
        intro f hf h
        have hm : f.priv ∈ fs.map (·.priv) := List.mem_map.2 ⟨f, hf, rfl⟩
        rw [q9] at hm
        obtain ⟨f', hf', e'⟩ := List.mem_map.1 hm
        exact hl'.2 f' hf' (e'.trans h)
      have := enter_safe I1 (Fp.mono g2 g3 g4 g5) (fs := fs) (g4.trans q8) ⟨by rw [g3, q7]; exact hl'.1, hfs⟩
        (by rw [g2]; exact g5 p (by rw [q1, q2]; exact H)) (h2 rfl).1 (h2 rfl).2
      rw [g4, q6, hk] at this
      exact this

theorem finish_safe {k : Nat} {stuck : Bool} (S : Safe w0 ch0 st ch k stuck) {bad : Bool} (h1 : stuck = true → bad = true) (h2 : 0 < k) :
    ∃ st' ch', step st (.finish bad) = .ok st' ∧ Safe w0 ch0 st' ch' (k - 1) bad := by
  show ∃ st' ch', (if st.err = true then Out.ok st else endElem st bad) = .ok st' ∧ _
  by_cases he : st.err = true
  · rw [if_pos he]
    exact ⟨st, ch, rfl, S.inv, fun h => by rw [he] at h; cases h⟩
  · rw [if_neg he]
    have he' : st.err = false := by simpa using he
    obtain ⟨F, hk, hl⟩ := S.frames he'
    unfold endElem
    cases hi : st.inner with
    | nil => rw [hi] at hk; exact absurd hk (Nat.ne_of_lt h2)
    | cons f fs =>
      dsimp only
      have hlen : fs.length = k - 1 := by rw [hi, List.length_cons] at hk; omega
      have F' : Frames { st with inner := fs } := ⟨F.root, F.rootKids, fun g hg => F.inner g (by rw [hi]; exact List.mem_cons_of_mem _ hg)⟩
      have I' : Inv w0 ch0 { st with inner := fs } ch := ⟨S.inv.base, S.inv.refs⟩
      have hsl : bad = false → st.root.priv ≠ none ∧ ∀ g ∈ st.inner, g.priv ≠ none := by
        intro hb
        apply hl
        cases hs : stuck with
        | false => rfl
        | true => rw [h1 hs] at hb; cases hb
      by_cases hb : bad = true ∨ f.priv = none
      · rw [if_pos hb]
        refine ⟨_, ch, rfl, I', fun _ => ⟨F', hlen, fun hb' => ⟨(hsl hb').1, fun g hg => (hsl hb').2 g (by rw [hi]; exact List.mem_cons_of_mem _ hg)⟩⟩⟩
      · rw [if_neg hb]
        push Not at hb
        obtain ⟨p, hp⟩ := Option.ne_none_iff_exists'.1 hb.2
        have hf := F.inner f (by rw [hi]; simp)
        rw [hp]
        obtain ⟨st1, ch1, g1, I1, g2, g3, g4, g5⟩ := mirror_safe (p := p) I' (hf.1 p hp) (xs := pending f.kids)
          (fun x hx' => ⟨(hf.2 x (pending_mem hx')).1, .inr (hf.2 x (pending_mem hx')).2⟩)
        refine ⟨st1, ch1, g1, I1, fun _ => ⟨F'.mono g2 g3 g4 g5, by rw [g4]; exact hlen, fun hb' => ?_⟩⟩
        rw [g3, g4]
        exact ⟨(hsl hb').1, fun g hg => (hsl hb').2 g (by rw [hi]; exact List.mem_cons_of_mem _ hg)⟩

theorem endDoc_safe {k : Nat} {stuck : Bool} (S : Safe w0 ch0 st ch k stuck) {bad : Bool} (h1 : stuck = true → bad = true) :
    ∃ st' ch', step st (.endDoc bad) = .ok st' ∧ Safe w0 ch0 st' ch' k bad := by
  show ∃ st' ch', (if st.err = true then Out.ok st else endDoc st bad) = .ok st' ∧ _
  by_cases he : st.err = true
  · rw [if_pos he]
    exact ⟨st, ch, rfl, S.inv, fun h => by rw [he] at h; cases h⟩
  · rw [if_neg he]
    have he' : st.err = false := by simpa using he
    obtain ⟨F, hk, hl⟩ := S.frames he'
    have hsl : bad = false → st.root.priv ≠ none ∧ ∀ g ∈ st.inner, g.priv ≠ none := by
      intro hb
      apply hl
      cases hs : stuck with
      | false => rfl
      | true => rw [h1 hs] at hb; cases hb
    unfold endDoc
    by_cases hb : bad = true ∨ st.root.priv = none
    · rw [if_pos hb]
      exact ⟨st, ch, rfl, S.inv, fun _ => ⟨F, hk, hsl⟩⟩
    · rw [if_neg hb]
      push Not at hb
      obtain ⟨p, hp⟩ := Option.ne_none_iff_exists'.1 hb.2
      have e := F.root p hp
      rw [hp]
      obtain ⟨st1, ch1, g1, I1, g2, g3, g4, g5⟩ := mirror_safe (p := p) S.inv (by rw [e]; exact place_doc S.inv) (xs := pending st.root.kids)
        (fun x hx' => ⟨F.rootKids x (pending_mem hx'), .inl e⟩)
      exact ⟨st1, ch1, g1, I1, fun _ => ⟨F.mono g2 g3 g4 g5, by rw [g4]; exact hk, by rw [g3, g4]; exact hsl⟩⟩

/-- libxml2 adds a child to the innermost element. -/
theorem toElem_safe {k : Nat} {stuck : Bool} (S : Safe w0 ch0 st ch k stuck) {g : List XItem → List XItem} (hg : ∀ l, (∀ x ∈ l, x.Fine ∧ x.NoDtd) → ∀ x ∈ g l, x.Fine ∧ x.NoDtd) :
    Safe w0 ch0 (toElem st g) ch k stuck := by
  obtain ⟨⟨B, R⟩, hf⟩ := S
  unfold toElem
  cases hi : st.inner with
  | nil => exact ⟨⟨B, R⟩, hf⟩
  | cons f fs =>
    refine ⟨⟨B, R⟩, fun he => ?_⟩
    obtain ⟨F, hk, hl⟩ := hf he
    refine ⟨⟨F.root, F.rootKids, ?_⟩, by rw [hi] at hk; exact hk, fun hs => ⟨(hl hs).1, ?_⟩⟩
    · intro f' hf'
      rcases List.mem_cons.1 hf' with rfl | h
      · have := F.inner f (by rw [hi]; simp)
        exact ⟨this.1, hg _ this.2⟩
      · exact F.inner f' (by rw [hi]; exact List.mem_cons_of_mem _ h)
    · intro f' hf'
      rcases List.mem_cons.1 hf' with rfl | h
      · exact (hl hs).2 f (by rw [hi]; simp)
      · exact (hl hs).2 f' (by rw [hi]; exact List.mem_cons_of_mem _ h)

theorem comment_safe {k : Nat} {stuck : Bool} (S : Safe w0 ch0 st ch k stuck) (s : Bytes) :
    Safe w0 ch0 (st.setTop { st.top with kids := .comment s :: st.top.kids }) ch k stuck := by
  cases hi : st.inner with
  | nil =>
    have e : st.setTop { st.top with kids := .comment s :: st.top.kids } = { st with root := { st.root with kids := .comment s :: st.root.kids } } := by
      unfold St.setTop St.top; rw [hi]
    rw [e]
    refine ⟨⟨S.inv.base, S.inv.refs⟩, fun he => ?_⟩
    obtain ⟨F, hk, hl⟩ := S.frames he
    refine ⟨⟨F.root, ?_, F.inner⟩, hk, hl⟩
    intro x hx
    rcases List.mem_cons.1 hx with rfl | hx
    · trivial
    · exact F.rootKids x hx
  | cons f fs =>
    have e : st.setTop { st.top with kids := .comment s :: st.top.kids } = toElem st (.comment s :: ·) := by
      unfold St.setTop St.top toElem; rw [hi]
    rw [e]
    refine toElem_safe S ?_
    intro l hl x hx
    rcases List.mem_cons.1 hx with rfl | hx
    · exact ⟨trivial, trivial⟩
    · exact hl x hx

theorem dtd_safe {k : Nat} {stuck : Bool} (S : Safe w0 ch0 st ch k stuck) {name : Bytes} (hn : ∃ cs, Holds (Str.create name) cs ∧ IsName cs) (a b : Option Bytes) :
    Safe w0 ch0 { st with root := { st.root with kids := .dtd name a b :: st.root.kids } } ch k stuck := by
  refine ⟨⟨S.inv.base, S.inv.refs⟩, fun he => ?_⟩
  obtain ⟨F, hk, hl⟩ := S.frames he
  refine ⟨⟨F.root, ?_, F.inner⟩, hk, hl⟩
  intro x hx
  rcases List.mem_cons.1 hx with rfl | hx
  · exact hn
  · exact F.rootKids x hx

theorem putText_fine (s : Bytes) (l : List XItem) (h : ∀ x ∈ l, x.Fine ∧ x.NoDtd) : ∀ x ∈ putText s l, x.Fine ∧ x.NoDtd := by
  intro x hx
  unfold putText at hx
  split at hx
  · rcases List.mem_cons.1 hx with rfl | hx
    · exact ⟨trivial, trivial⟩
    · exact h x (List.mem_cons_of_mem _ hx)
  · rcases List.mem_cons.1 hx with rfl | hx
    · exact ⟨trivial, trivial⟩
    · exact h x hx

theorem putCdata_fine (s : Bytes) (l : List XItem) (h : ∀ x ∈ l, x.Fine ∧ x.NoDtd) : ∀ x ∈ putCdata s l, x.Fine ∧ x.NoDtd := by
  intro x hx
  unfold putCdata at hx
  split at hx
  · rcases List.mem_cons.1 hx with rfl | hx
    · exact ⟨trivial, trivial⟩
    · exact h x (List.mem_cons_of_mem _ hx)
  · rcases List.mem_cons.1 hx with rfl | hx
    · exact ⟨trivial, trivial⟩
    · exact h x hx

theorem steps_safe : ∀ {es : List Event} {k : Nat} {stuck : Bool}, Fair k stuck es → ∀ {st : St} {ch : Children}, Safe w0 ch0 st ch k stuck →
    ∃ st' ch', steps st es = .ok st' ∧ Inv w0 ch0 st' ch' := by
  intro es
  induction es with
  | nil => intro k stuck _ st ch S; exact ⟨st, ch, rfl, S.inv⟩
  | cons e es ih =>
    intro k stuck h st ch S
    have go : ∀ {k' : Nat} {b : Bool}, (∃ st' ch', step st e = .ok st' ∧ Safe w0 ch0 st' ch' k' b) → Fair k' b es → ∃ st' ch', steps st (e :: es) = .ok st' ∧ Inv w0 ch0 st' ch' := by
      rintro k' b ⟨st', ch', h1, S'⟩ h2
      obtain ⟨st2, ch2, g1, g2⟩ := ih h2 S'
      exact ⟨st2, ch2, by unfold steps; rw [h1]; exact g1, g2⟩
    cases e with
    | startDoc b => exact h.elim
    | endDoc b => exact go (endDoc_safe S h.1) h.2
    | start n atts b => exact go (start_safe S h.1 h.2.1) h.2.2
    | finish b => exact go (finish_safe S h.1 h.2.1) h.2.2
    | chars s => exact go ⟨_, ch, rfl, toElem_safe S (putText_fine s)⟩ h
    | cdata s => exact go ⟨_, ch, rfl, toElem_safe S (putCdata_fine s)⟩ h
    | comment s => exact go ⟨_, ch, rfl, comment_safe S s⟩ h
    | ref name kids =>
      refine go ⟨_, ch, rfl, toElem_safe S ?_⟩ h.2
      intro l hl x hx
      rcases List.mem_cons.1 hx with rfl | hx
      · exact ⟨h.1, trivial⟩
      · exact hl x hx
    | dtd name a b => exact go ⟨_, ch, rfl, dtd_safe S h.1 a b⟩ h.2
    | pi a b => exact go ⟨_, ch, rfl, S⟩ h

theorem create_run (S : Sound w0 ch0) : ∃ st, create w0 = .ok st ∧ Inv w0 ch0 st ch0 ∧ st.doc = w0.fresh ∧ st.err = false ∧ st.root = ⟨none, []⟩ ∧ st.inner = [] := by
  have hC := S.wf.toCore
  have hnd := createDocument_run (w := w0)
  have S1 : Sound (w0.add { type := .document, owner := some w0.fresh }) ch0 :=
    S.add (WF_createDocument S.wf) rfl rfl rfl rfl (fun h => by cases h)
  have r1 : ref w0.fresh (w0.add { type := .document, owner := some w0.fresh }) =
      .ok ((w0.add { type := .document, owner := some w0.fresh }).upd w0.fresh { type := .document, owner := some w0.fresh, refcnt := 2 }) () := by
    rw [ref_run (add_new _), ref_upd (add_new _)]; rfl
  have S2 : Sound ((w0.add { type := .document, owner := some w0.fresh }).upd w0.fresh { type := .document, owner := some w0.fresh, refcnt := 2 }) ch0 :=
    S1.setRef (n := { type := .document, owner := some w0.fresh }) (add_new _) (fun _ _ => by decide) (fun _ h => by cases h)
  have old : ∀ j, j < w0.fresh → ((w0.add { type := .document, owner := some w0.fresh }).upd w0.fresh { type := .document, owner := some w0.fresh, refcnt := 2 }).nodes j = w0.nodes j := by
    intro j hj
    rw [upd_ne _ _ (Nat.ne_of_lt hj), Xml.add_ne _ (Nat.ne_of_lt hj)]
  have none_above : ∀ j m, ((w0.add { type := .document, owner := some w0.fresh }).upd w0.fresh { type := .document, owner := some w0.fresh, refcnt := 2 }).nodes j = some m → ¬ w0.fresh < j := by
    intro j m hm hj
    rw [upd_ne _ _ (Nat.ne_of_gt hj), Xml.add_ne _ (Nat.ne_of_gt hj)] at hm
    exact absurd (hC.bnd _ _ hm) (Nat.not_lt.2 (Nat.le_of_lt hj))
  have hrun : (do
      let d ← createDocument
      ref d
      pure d : M NodeId) w0 = .ok ((w0.add { type := .document, owner := some w0.fresh }).upd w0.fresh { type := .document, owner := some w0.fresh, refcnt := 2 }) w0.fresh := by
    rw [bind_ok hnd, bind_ok r1]; rfl
  refine ⟨_, by unfold create; exact onTree_ok hrun, ⟨⟨S2, rfl, ?_, ?_, ?_, ?_, ?_, ?_, fun _ _ => rfl, ?_⟩, ?_⟩, rfl, rfl, rfl, rfl⟩
  · exact ⟨_, upd_same _ _ _, rfl⟩
  · intro j m hm hj; exact absurd hj (none_above j m hm)
  · intro j hj; exact congrArg _ (old j hj)
  · intro j hj; exact congrArg _ (old j hj)
  · intro j hj; exact congrArg _ (old j hj)
  · intro j hj; exact congrArg _ (old j hj)
  · intro j m p hm hp
    obtain ⟨k, hk⟩ := hC.linked.alive_parent hm hp
    exact hC.bnd _ _ hk
  · intro j m hm hj
    have e : j = w0.fresh := Nat.le_antisymm (Nat.not_lt.1 (none_above j m hm)) hj
    subst e
    have hm' := hm
    dsimp only at hm'
    rw [upd_same] at hm'; cases hm'
    simp

/-- The parser gives up its reference. -/
theorem destroy_run (I : Inv w0 ch0 st ch) : ∃ w', destroy st = .ok w' ∧ Base w0 ch0 st.doc w' ch ∧ Handed w0 ch0 st.doc w' ch := by
  obtain ⟨dn, hd, hdt⟩ := I.base.docNode
  have hdr := I.refs _ dn hd (Nat.le_refl _)
  rw [if_pos rfl] at hdr
  have u2 := unref_keep hd (by omega) (.inl (by rw [hdr]; decide))
  have B2 := I.base.setRef (r := dn.refcnt - 1) hd (Nat.le_refl _) (fun _ => by rw [hdr]; decide)
  refine ⟨_, by unfold destroy; exact onTree_ok u2, B2, B2.sound.wf, ⟨_, upd_same _ _ _, hdt, by show dn.refcnt - 1 = 1; rw [hdr]⟩, ?_, B2.data, B2.refs, B2.lists⟩
  intro j m hm hj
  obtain ⟨g1, g2, g3⟩ := B2.nodes j m hm hj
  refine ⟨g2, ?_, B2.root hm (Nat.le_of_lt hj), ?_⟩
  · rw [upd_ne _ _ (Nat.ne_of_gt hj)] at hm
    rw [I.refs j m hm (Nat.le_of_lt hj), if_neg (Nat.ne_of_gt hj)]
  · rcases g1 with ⟨h, _⟩ | ⟨h | h | h, _⟩ | ⟨h, _⟩ | ⟨h, _⟩ <;> rw [h] <;> simp

/-- C81.  Whatever sequence of events libxml2 reports, with names and attributes that are refused or not and with errors after which it goes on, as long as the errors stay the last ones (see
`C81_link_violated`), no attribute takes the place of another one (`C81_attribute_violated`), no attribute "class" has an entity reference (`C81_class_violated`) and no comment follows the
declaration of an entity (`C81_entity_violated`): no handler crashes and none fails; destroying the parser leaves all new nodes in the tree of the new document, exactly the caller's reference,
and what was in memory before as it was; and when the caller gives up its reference, nothing of the document is left. -/
theorem C81_safe_partial (S : Sound w0 ch0) (bad : Bool) (es : List Event) (h : Fair 0 bad es) :
    ∃ st0 st ch w1 w2, create w0 = .ok st0 ∧ steps st0 (.startDoc bad :: es) = .ok st ∧ st.doc = w0.fresh ∧ destroy st = .ok w1 ∧ Handed w0 ch0 w0.fresh w1 ch ∧
      unref w0.fresh w1 = .ok w2 () ∧ (∀ j, w0.fresh ≤ j → w2.nodes j = none) ∧ ∀ j, j < w0.fresh → w2.nodes j = w1.nodes j := by
  obtain ⟨st0, h1, I0, h2, he, hr, hi⟩ := create_run S
  have S1 : ∃ st1, step st0 (.startDoc bad) = .ok st1 ∧ Safe w0 ch0 st1 ch0 0 bad := by
    refine ⟨_, rfl, ?_⟩
    cases bad with
    | true =>
      rw [if_pos (by simp)]
      refine ⟨I0, fun _ => ⟨⟨?_, ?_, ?_⟩, by rw [hi]; rfl, fun h => by cases h⟩⟩
      · rw [hr]; intro p hp; cases hp
      · rw [hr]; intro p hp; cases hp
      · rw [hi]; intro p hp; cases hp
    | false =>
      rw [if_neg (by rw [he]; decide)]
      refine ⟨⟨I0.base, I0.refs⟩, fun _ => ⟨⟨?_, ?_, ?_⟩, by show st0.inner.length = 0; rw [hi]; rfl, fun _ => ⟨by simp, ?_⟩⟩⟩
      · intro p hp
        have e : st0.doc = p := by simpa using hp
        exact e.symm
      · show ∀ x ∈ st0.root.kids, _
        rw [hr]; intro p hp; cases hp
      · show ∀ x ∈ st0.inner, _
        rw [hi]; intro p hp; cases hp
      · show ∀ x ∈ st0.inner, _
        rw [hi]; intro p hp; cases hp
  obtain ⟨st1, e1, S1⟩ := S1
  obtain ⟨st, ch, h3, I⟩ := steps_safe h S1
  obtain ⟨w1, h4, B, Hd⟩ := destroy_run I
  have hdoc : st.doc = w0.fresh := I.base.docIs
  obtain ⟨w2, h5, h6, h7⟩ := Xml.released S B Hd
  rw [← hdoc]
  exact ⟨st0, st, ch, w1, w2, h1, by unfold steps; rw [e1]; exact h3, rfl, h4, Hd, h5, h6, h7⟩

end Dom.Libxml
