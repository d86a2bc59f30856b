/-!
# Basic vocabulary of the model

Bytes, C outcomes with undefined behaviour, C strings, error codes and fixed-width
arithmetic.
-/
namespace Dax

/-- One byte of memory (`uint8_t` / `char`). -/
abbrev Byte := BitVec 8

/-- Outcome of running a piece of C code: a value, or undefined behaviour (out-of-bounds
access, use after free, NULL dereference, failed `assert`, signed overflow). -/
inductive C (α : Type) where
  | ok (a : α)
  | ub (why : String)

namespace C

/-- Sequencing of C computations. -/
def bind {α β : Type} : C α → (α → C β) → C β
  | ok a, f => f a
  | ub w, _ => ub w

instance : Monad C where
  pure := ok
  bind := bind

/-- The computation terminates without undefined behaviour. -/
def isOk {α : Type} : C α → Bool
  | ok _ => true
  | ub _ => false

@[simp] theorem pure_def {α : Type} (a : α) : (pure a : C α) = ok a := rfl
@[simp] theorem ok_bind {α β : Type} (a : α) (f : α → C β) : (ok a >>= f) = f a := rfl
@[simp] theorem ub_bind {α β : Type} (w : String) (f : α → C β) : ((ub w : C α) >>= f) = ub w := rfl

theorem bind_eq_ok {α β : Type} {x : C α} {f : α → C β} {b : β} :
    (x >>= f) = ok b ↔ ∃ a, x = ok a ∧ f a = ok b := by
  cases x with
  | ok a => simp
  | ub w => simp

theorem isOk_iff {α : Type} {x : C α} : x.isOk = true ↔ ∃ a, x = ok a := by
  cases x <;> simp [isOk]

end C

/-- `uint32_t` value of an `int` (conversion modulo 2^32). -/
def u32 (x : Int) : Nat := (x % 4294967296).toNat

/-- `int` value of any integer converted to 32-bit signed (two's complement wrap). -/
def i32 (x : Int) : Int :=
  if x % 4294967296 < 2147483648 then x % 4294967296 else x % 4294967296 - 4294967296

/-- Signed 32-bit addition; overflow is undefined behaviour. -/
def addI32 (a b : Int) : C Int :=
  if -2147483648 ≤ a + b ∧ a + b < 2147483648 then .ok (a + b) else .ub "signed overflow"

/-- `memcpy` out of a block: `n` bytes at offset `off`. -/
def rd (buf : List Byte) (off n : Int) : C (List Byte) :=
  if 0 ≤ off ∧ 0 ≤ n ∧ off + n ≤ buf.length then
    .ok ((buf.drop off.toNat).take n.toNat)
  else .ub "read outside block"

/-- `memcpy` into a block: store `d` at offset `off`. -/
def wr (buf : List Byte) (off : Int) (d : List Byte) : C (List Byte) :=
  if 0 ≤ off ∧ off + d.length ≤ buf.length then
    .ok (buf.take off.toNat ++ d ++ buf.drop (off.toNat + d.length))
  else .ub "write outside block"

/-- A C string: its bytes without the terminating NUL. -/
abbrev Name := List Byte

/-- Literal helper used in examples: ASCII text as a C string. -/
def nm (s : String) : Name := s.toList.map fun c => BitVec.ofNat 8 c.toNat

/-- `strcmp`: lexicographic comparison of unsigned bytes. -/
def strcmp : Name → Name → Ordering
  | [], [] => .eq
  | [], _ :: _ => .lt
  | _ :: _, [] => .gt
  | a :: as, b :: bs =>
    if a.toNat < b.toNat then .lt
    else if b.toNat < a.toNat then .gt
    else strcmp as bs

/-- `tolower` on one byte in the C locale. -/
def toLower (b : Byte) : Byte :=
  if 65 ≤ b.toNat ∧ b.toNat ≤ 90 then BitVec.ofNat 8 (b.toNat + 32) else b

/-- `strcasecmp(a, b) == 0`. -/
def strcaseeq (a b : Name) : Bool := a.map toLower == b.map toLower

/-- `isalpha` in the C locale. -/
def isAlpha (b : Byte) : Bool :=
  (65 ≤ b.toNat && b.toNat ≤ 90) || (97 ≤ b.toNat && b.toNat ≤ 122)

/-- `isdigit` in the C locale. -/
def isDigit (b : Byte) : Bool := 48 ≤ b.toNat && b.toNat ≤ 57

/-- The character `_`. -/
def underscore : Byte := 95

/-- Little-endian value of a byte string. -/
def leNat : List Byte → Nat
  | [] => 0
  | b :: bs => b.toNat + 256 * leNat bs

/-- The `n` little-endian bytes of a value. -/
def toLE : Nat → Nat → List Byte
  | 0, _ => []
  | n + 1, v => BitVec.ofNat 8 v :: toLE n (v / 256)

/-- Four little-endian bytes of an `int`/`uint32_t`. -/
def le4 (v : Int) : List Byte := toLE 4 (u32 v)

/-! ## Error codes, `src/opendax.h:106-137` -/
def ERR_GENERIC : Int := -1
def ERR_2BIG : Int := -3
def ERR_ARG : Int := -4
def ERR_NOTFOUND : Int := -5
def ERR_TAG_BAD : Int := -8
def ERR_TAG_DUPL : Int := -9
def ERR_ALLOC : Int := -10
def ERR_MSG_BAD : Int := -11
def ERR_DUPL : Int := -12
def ERR_ILLEGAL : Int := -15
def ERR_EMPTY : Int := -20
def ERR_BADTYPE : Int := -21
def ERR_AUTH : Int := -23
def ERR_OVERFLOW : Int := -24
def ERR_UNDERFLOW : Int := -25
def ERR_DELETED : Int := -26
def ERR_READONLY : Int := -27
def ERR_WRITEONLY : Int := -28
def ERR_NOTIMPLEMENTED : Int := -29

/-! ## Type codes, `src/opendax.h:40-64` -/
def DAX_BOOL : Nat := 0x10
def DAX_BYTE : Nat := 0x03
def DAX_SINT : Nat := 0x13
def DAX_CHAR : Nat := 0x23
def DAX_WORD : Nat := 0x04
def DAX_INT : Nat := 0x14
def DAX_UINT : Nat := 0x24
def DAX_DWORD : Nat := 0x05
def DAX_DINT : Nat := 0x15
def DAX_UDINT : Nat := 0x25
def DAX_REAL : Nat := 0x35
def DAX_LWORD : Nat := 0x06
def DAX_LINT : Nat := 0x16
def DAX_ULINT : Nat := 0x26
def DAX_TIME : Nat := 0x36
def DAX_LREAL : Nat := 0x46
def DAX_CUSTOM : Nat := 0x80000000
def DAX_QUEUE : Nat := 0x40000000

/-- `DAX_TAGNAME_SIZE`, `src/opendax.h:187-189`. -/
def TAGNAME_SIZE : Nat := 32

/-- `IS_CUSTOM`, `src/opendax.h:191`. -/
def isCustom (t : Nat) : Bool := t.testBit 31
/-- `IS_QUEUE`, `src/opendax.h:192`. -/
def isQueue (t : Nat) : Bool := t.testBit 30
/-- `type & ~DAX_QUEUE`. -/
def stripQueue (t : Nat) : Nat := if isQueue t then t - DAX_QUEUE else t
/-- `CDT_TO_INDEX`, `src/libcommon.h:91`. -/
def cdtToIndex (t : Nat) : Nat := if isCustom t then t - DAX_CUSTOM else t
/-- `CDT_TO_TYPE`, `src/libcommon.h:92` (for indexes below 2^31). -/
def cdtToType (i : Nat) : Nat := i + DAX_CUSTOM
/-- `TYPESIZE`, `src/opendax.h:103`: size in bits of a base type. -/
def typeBits (t : Nat) : Nat := 2 ^ (t % 16)

/-- The sixteen base types, in the order tested by `_checktype`
(`src/server/tagbase.c:76-107`). -/
def baseTypes : List Nat :=
  [DAX_BOOL, DAX_BYTE, DAX_SINT, DAX_CHAR, DAX_WORD, DAX_INT, DAX_UINT, DAX_DWORD,
   DAX_DINT, DAX_UDINT, DAX_TIME, DAX_REAL, DAX_LWORD, DAX_LINT, DAX_ULINT, DAX_LREAL]

end Dax
