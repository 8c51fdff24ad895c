/-!
# Outcomes shared by every part of the model

`Exc` transcribes `dom_exception`; `Fault` lists the undefined behaviours the model makes visible.
-/
namespace Dom

/-- `dom_exception`, include/dom/core/exceptions.h:24-50.  `DOM_NO_ERR` is represented by `Out.ok`.
`badCode` stands for the value `(uint32_t) -1` which src/core/string.c:511 and :525 return although it is
not a member of the enumeration. -/
inductive Exc
  | indexSize | domstringSize | hierarchyRequest | wrongDocument | invalidCharacter
  | noDataAllowed | noModificationAllowed | notFound | notSupported | inuseAttribute
  | invalidState | syntax | invalidModification | namespace | invalidAccess | validation
  | typeMismatch | unspecifiedEventType | dispatchRequest | noMem | attrWrongType | badCode
  deriving DecidableEq, Repr

/-- Undefined behaviour of the C program, kept as explicit outcomes of the model
(not part of the code: the C standard gives these no meaning). -/
inductive Fault
  | nullDeref      -- dereference of a NULL pointer
  | useAfterFree   -- access to a released (or never allocated) object
  | assertFail     -- a failing `assert`
  | overrun        -- access outside an allocated buffer
  | uninit         -- read of an uninitialised variable
  | diverge        -- a loop that never ends
  | badCall        -- a call through a pointer to a function of another type
  deriving DecidableEq, Repr

/-- Result of a modelled call: a value, a DOM exception, or undefined behaviour. -/
inductive Out (α : Type u)
  | ok (a : α)
  | exc (e : Exc)
  | fault (f : Fault)
  deriving DecidableEq, Repr

namespace Out

/-- Sequencing of calls: exceptions and faults stop the function, as the early `return`s in the C code do. -/
def bind {α : Type u} {β : Type v} (x : Out α) (f : α → Out β) : Out β :=
  match x with
  | ok a => f a
  | exc e => exc e
  | fault g => fault g

instance : Monad Out where
  pure := ok
  bind := bind

@[simp] theorem bind_ok {α β : Type u} (a : α) (f : α → Out β) : (Out.ok a >>= f) = f a := rfl
@[simp] theorem bind_exc {α β : Type u} (e : Exc) (f : α → Out β) :
    ((Out.exc e : Out α) >>= f) = .exc e := rfl
@[simp] theorem bind_fault {α β : Type u} (g : Fault) (f : α → Out β) :
    ((Out.fault g : Out α) >>= f) = .fault g := rfl
@[simp] theorem pure_eq {α : Type u} (a : α) : (pure a : Out α) = .ok a := rfl

end Out

/-- Value of a `uint32_t` after an unsigned computation (C11 6.2.5p9: arithmetic modulo 2^32); equal to
`n % 2^32`, see `u32_eq_mod`. -/
def u32 (n : Nat) : Nat := if n < 2 ^ 32 then n else n % 2 ^ 32

/-- `a - b` in `uint32_t` arithmetic, for operands below 2^32 (see `sub32_eq_mod`). -/
def sub32 (a b : Nat) : Nat := if b ≤ a then a - b else 2 ^ 32 + a - b

/-- `a - b` in `size_t` arithmetic (64-bit), for operands below 2^64. -/
def sub64 (a b : Nat) : Nat := if b ≤ a then a - b else 2 ^ 64 + a - b

theorem u32_eq_mod (n : Nat) : u32 n = n % 2 ^ 32 := by
  unfold u32; split
  · omega
  · rfl

theorem sub32_eq_mod (a b : Nat) (ha : a < 2 ^ 32) (hb : b < 2 ^ 32) : sub32 a b = (2 ^ 32 + a - b) % 2 ^ 32 := by
  unfold sub32; split <;> omega

theorem u32_small {n : Nat} (h : n < 2 ^ 32) : u32 n = n := if_pos h

theorem sub32_le {a b : Nat} (h : b ≤ a) : sub32 a b = a - b := if_pos h

theorem sub32_gt {a b : Nat} (h : a < b) : sub32 a b = 2 ^ 32 + a - b := if_neg (by omega)

/-- `(int32_t) n < 0` for a `uint32_t` value `n`. -/
def neg32 (n : Nat) : Bool := decide (2 ^ 31 ≤ n)

/-- `(uint32_t) -1`. -/
def u32max : Nat := 2 ^ 32 - 1

end Dom
