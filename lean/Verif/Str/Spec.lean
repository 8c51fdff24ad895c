import Verif.Str.Model
/-!
# Specification vocabulary for DOM strings

Characters are Lean's `Char` (Unicode scalar values); their UTF-8 form is Lean's own
`String.utf8EncodeChar`.  Nothing here refers to the functions of `Verif.Str.Model` except the
`DStr` record itself.
-/
namespace Dom.Str

/-- UTF-8 encoding of a character sequence. -/
def utf8 (cs : List Char) : List UInt8 := cs.flatMap String.utf8EncodeChar

/-- `str` is a DOM string holding the characters `cs` (in either representation), small enough for the 32-bit
byte counts used throughout string.c. -/
structure Holds (str : DStr) (cs : List Char) : Prop where
  data : str.data = utf8 cs
  small : (utf8 cs).length < 2 ^ 32

/-- A nullable DOM string holding `cs`; `NULL` stands for the empty string. -/
def HoldsOpt : Option DStr → List Char → Prop
  | none, cs => cs = []
  | some s, cs => Holds s cs

/-- Characters libparserutils decodes: it treats U+FFFE and U+FFFF as errors. -/
def Decodable (cs : List Char) : Prop := ∀ c ∈ cs, c.toNat ≠ 0xFFFE ∧ c.toNat ≠ 0xFFFF

/-- ASCII lower-casing of one byte. -/
def asciiLower (b : UInt8) : UInt8 := if 65 ≤ b ∧ b ≤ 90 then b + 32 else b

/-- ASCII upper-casing of one byte. -/
def asciiUpper (b : UInt8) : UInt8 := if 97 ≤ b ∧ b ≤ 122 then b - 32 else b

/-- White space: space, tab, line feed, form feed, carriage return. -/
def IsSpace (b : UInt8) : Prop := b = 32 ∨ b = 9 ∨ b = 10 ∨ b = 12 ∨ b = 13

instance (b : UInt8) : Decidable (IsSpace b) := by unfold IsSpace; infer_instance

/-- `Collapses l l'`: `l'` is `l` with every maximal run of white space replaced by one space. -/
inductive Collapses : List UInt8 → List UInt8 → Prop
  | nil : Collapses [] []
  | char (b l l') : ¬ IsSpace b → Collapses l l' → Collapses (b :: l) (b :: l')
  | run (w l l') : w ≠ [] → (∀ b ∈ w, IsSpace b) → (∀ b, l.head? = some b → ¬ IsSpace b) →
      Collapses l l' → Collapses (w ++ l) (32 :: l')

/-- `Stripped l l'`: `l'` is `l` without its leading white space. -/
def StripsLeading (l l' : List UInt8) : Prop :=
  ∃ w, l = w ++ l' ∧ (∀ b ∈ w, IsSpace b) ∧ ∀ b, l'.head? = some b → ¬ IsSpace b

/-- `l'` is `l` without its trailing white space. -/
def StripsTrailing (l l' : List UInt8) : Prop :=
  ∃ w, l = l' ++ w ∧ (∀ b ∈ w, IsSpace b) ∧ ∀ b, l'.getLast? = some b → ¬ IsSpace b

end Dom.Str
