import Verif.Spec.Events
/-!
# Specification: floating point numbers in events
-/
set_option autoImplicit false
namespace Dax

/-- REAL and LREAL: bytes, bits of the mantissa, bits of the exponent (IEEE 754). -/
def fltTypes : List (Nat × Nat × Nat × Nat) := [(DAX_REAL, 4, 23, 8), (DAX_LREAL, 8, 52, 11)]

/-- The bytes are not a number. -/
def IsNan (mb eb : Nat) (v : List Byte) : Prop := unsignedVal v / 2 ^ mb % 2 ^ eb = 2 ^ eb - 1 ∧ unsignedVal v % 2 ^ mb ≠ 0

/-- The number that the bytes stand for, as a multiple of half the smallest number; infinity is larger than all others. -/
def fltVal (mb eb : Nat) (v : List Byte) : Int :=
  let x := unsignedVal v
  let ex := x / 2 ^ mb % 2 ^ eb
  let m := x % 2 ^ mb + (if ex = 0 then 0 else 2 ^ mb)
  (if x / 2 ^ (mb + eb) % 2 = 1 then -1 else 1) * (m * 2 ^ (max ex 1) : Nat)

/-- The condition of a comparison event for floating point numbers: never true of what is not a number. -/
def fltRelation (mb eb : Nat) (et : Int) (v x : List Byte) : Prop :=
  ¬ IsNan mb eb v ∧ ¬ IsNan mb eb x ∧ relation et (fltVal mb eb v) (fltVal mb eb x)

end Dax
