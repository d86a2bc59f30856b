import Verif.Model.Histlog
import Verif.Spec.Data
/-!
# Specification: the logger of histories
-/
set_option autoImplicit false
namespace Dax.Hist

/-- The number that the bytes of an integer type mean. -/
def num (signed : Bool) (b : List Byte) : Int := if signed then signedVal b else unsignedVal b

/-- The distance of two values. -/
def dist (signed : Bool) (a b : List Byte) : Nat := (num signed a - num signed b).natAbs

/-- The integer types for which changes are found (see `C76_unsigned`, `C76_uint`, `C76_time`): type, size, signed. -/
def fine : List (Nat × Nat × Bool) := [(DAX_BYTE, 1, false), (DAX_SINT, 1, true), (DAX_CHAR, 1, true), (DAX_INT, 2, true), (DAX_DINT, 4, true), (DAX_LINT, 8, true)]

/-- The values in a log, without the gaps. -/
def values (l : List (Option (List Byte) × Int)) : List (List Byte × Int) := l.filterMap fun p => p.1.map (·, p.2)

/-- The values the tag has had, as far as the logger has learned of them, with the time. -/
def seen (es : List Arrival) : List (List Byte × Int) := es.filterMap fun e => e.data.map (·, e.now)

/-- The times of events grow, and none is before `t`. -/
def Ordered : Int → List Arrival → Prop
  | _, [] => True
  | t, e :: es => t ≤ e.now ∧ e.now ≤ e.late ∧ Ordered e.late es

/-- The times in a log grow. -/
def Sorted (l : List (Option (List Byte) × Int)) : Prop := l.Pairwise fun a b => a.2 ≤ b.2

end Dax.Hist
