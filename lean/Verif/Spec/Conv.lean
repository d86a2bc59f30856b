import Verif.Model.Basic
set_option autoImplicit false
/-!
# Specification for C51 and C62: decimal text, integer types
-/
namespace Dax.Conv

/-- The number written as decimal digits. -/
def decVal (ds : Name) : Nat := ds.foldl (fun a b => 10 * a + (b.toNat - 48)) 0

/-- One or more decimal digits; a number other than zero does not start with the digit zero
(the C library would take it for an octal number). -/
structure Decimal (ds : Name) : Prop where
  ne : ds ≠ []
  digit : ∀ b ∈ ds, 48 ≤ b.toNat ∧ b.toNat ≤ 57
  lead : ds.head? ≠ some 48#8 ∨ ds = [48#8]

/-- The text is the number `v` in decimal, with an optional sign. -/
def IsDec (t : Name) (v : Int) : Prop :=
  ∃ ds, Decimal ds ∧ ((t = ds ∨ t = 43#8 :: ds) ∧ v = decVal ds ∨
    t = 45#8 :: ds ∧ v = -(decVal ds : Int))

/-- Type code, size in bytes, smallest and largest value of the integer types. -/
inductive IntType : Nat → Nat → Int → Int → Prop where
  | byte : IntType DAX_BYTE 1 0 255
  | sint : IntType DAX_SINT 1 (-128) 127
  | char : IntType DAX_CHAR 1 (-128) 127
  | word : IntType DAX_WORD 2 0 65535
  | uint : IntType DAX_UINT 2 0 65535
  | int : IntType DAX_INT 2 (-32768) 32767
  | dword : IntType DAX_DWORD 4 0 4294967295
  | udint : IntType DAX_UDINT 4 0 4294967295
  | dint : IntType DAX_DINT 4 (-2147483648) 2147483647
  | lword : IntType DAX_LWORD 8 0 18446744073709551615
  | ulint : IntType DAX_ULINT 8 0 18446744073709551615
  | lint : IntType DAX_LINT 8 (-9223372036854775808) 9223372036854775807
  | time : IntType DAX_TIME 8 (-9223372036854775808) 9223372036854775807

/-- Element `i` (of `n` bytes) of the array holds the number `v`. -/
def Holds (b : List Byte) (n i : Nat) (v : Int) : Prop :=
  n * i + n ≤ b.length ∧ (leNat ((b.drop (n * i)).take n) : Int) = v % (256 ^ n : Nat)

/-- The two arrays differ in element `i` (of `n` bytes) at most. -/
def OnlyElem (b b' : List Byte) (n i : Nat) : Prop :=
  b'.length = b.length ∧ ∀ j, j < n * i ∨ n * i + n ≤ j → b'[j]? = b[j]?

/-- What a conversion with limits should answer and store. -/
def Saturates (lo hi v ret stored : Int) : Prop :=
  (lo ≤ v ∧ v ≤ hi ∧ ret = 0 ∧ stored = v) ∨
  (v < lo ∧ ret = ERR_UNDERFLOW ∧ stored = lo) ∨
  (hi < v ∧ ret = ERR_OVERFLOW ∧ stored = hi)

end Dax.Conv
