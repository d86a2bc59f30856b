import Verif.Spec.Modbus
/-!
# Specification: what requests to write carry
-/
set_option autoImplicit false
namespace Dax.Modbus

/-- The values a request carries for register number `m` of those it writes: high and low byte. -/
def sentWord (f : List Byte) (m : Nat) : Byte × Byte :=
  if code f = 6 then (f.getD 4 0, f.getD 5 0) else (f.getD (7 + 2 * m) 0, f.getD (8 + 2 * m) 0)

/-- The value a request carries for coil number `q` of those it writes. -/
def sentBit (f : List Byte) (q : Nat) : Bool :=
  if code f = 5 then field f 4 != 0 else (f.getD (7 + q / 8) 0).getLsbD (q % 8)

/-- How many registers or coils a request writes. -/
def sentCount (f : List Byte) : Nat := if code f = 5 ∨ code f = 6 then 1 else field f 4

end Dax.Modbus
