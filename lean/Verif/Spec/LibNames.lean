import Verif.Model.Basic
/-!
# Specification of names that are recognised ignoring case
-/
set_option autoImplicit false
namespace Dax

/-- The same letter, capital or not. -/
def SameLetter (x y : Byte) : Prop :=
  x = y ∨ (65 ≤ x.toNat ∧ x.toNat ≤ 90 ∧ y.toNat = x.toNat + 32) ∨ (65 ≤ y.toNat ∧ y.toNat ≤ 90 ∧ x.toNat = y.toNat + 32)

/-- `b` is `a` with any capitalisation. -/
def SameText : Name → Name → Prop
  | [], [] => True
  | x :: a, y :: b => SameLetter x y ∧ SameText a b
  | _, _ => False

/-- The base types: the codes of `opendax.h` with their names. -/
def baseTable : List (Nat × String) :=
  [(0x10, "BOOL"), (0x03, "BYTE"), (0x13, "SINT"), (0x23, "CHAR"), (0x04, "WORD"), (0x14, "INT"), (0x24, "UINT"), (0x05, "DWORD"),
   (0x15, "DINT"), (0x25, "UDINT"), (0x35, "REAL"), (0x06, "LWORD"), (0x16, "LINT"), (0x26, "ULINT"), (0x36, "TIME"), (0x46, "LREAL")]

/-- The event types a module can ask for by name, with their codes. -/
def eventTable : List (Int × String) :=
  [(2, "WRITE"), (3, "CHANGE"), (4, "SET"), (5, "RESET"), (6, "EQUAL"), (7, "GREATER"), (8, "LESS"), (9, "DEADBAND")]

end Dax
