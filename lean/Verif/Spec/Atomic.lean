import Verif.Spec.Events
/-!
# Specification of atomic operations
-/
set_option autoImplicit false
namespace Dax

/-- The logic operations by operation code: the new value of a bit from its old value and the
operand (`ATOMIC_OP_NOT` to `ATOMIC_OP_XNOR` of `opendax.h`). -/
def bitFn (op : Nat) : Option (Bool → Bool → Bool) :=
  match op with
  | 3 => some (fun a _ => !a)
  | 4 => some (fun a b => a || b)
  | 5 => some (fun a b => a && b)
  | 6 => some (fun a b => !(a || b))
  | 7 => some (fun a b => !(a && b))
  | 8 => some (fun a b => a != b)
  | 9 => some (fun a b => a == b)
  | _ => none

/-- First bit addressed by a handle. -/
def Handle.firstBit (h : Handle) : Nat := if h.type = DAX_BOOL then 8 * h.byte + h.bit else 8 * h.byte

/-- Number of bits addressed by a handle. -/
def Handle.bitCount (h : Handle) : Nat := if h.type = DAX_BOOL then h.count else 8 * h.size

/-- `new` is `old` with `f` applied to the addressed bits and the bits of the operand. -/
def BitsDone (f : Bool → Bool → Bool) (h : Handle) (operand old new : List Byte) : Prop :=
  new.length = old.length ∧ ∀ k, bitAt new k =
    if h.firstBit ≤ k ∧ k < h.firstBit + h.bitCount then f (bitAt old k) (bitAt operand (k - h.firstBit))
    else bitAt old k

/-- A handle as the library makes it: BOOL handles have the number of bytes their bits need. -/
def Handle.Fitted (h : Handle) : Prop :=
  h.type = DAX_BOOL → h.bit < 8 ∧ 0 < h.count ∧ h.size = (h.bit + h.count + 7) / 8

/-- The ranges for which the two-operand operations work: whole bytes at the start of the tag, or
bits that do not end at a byte boundary; for the negated operations the latter only at the start of
the tag and over more than one byte. -/
def Handle.Works (h : Handle) (op : Nat) : Prop :=
  op = 3 ∨
  ((h.type ≠ DAX_BOOL ∨ (h.bit = 0 ∧ h.count % 8 = 0)) ∧ h.byte = 0) ∨
  (h.type = DAX_BOOL ∧ (h.bit + h.count) % 8 ≠ 0 ∧ (op = 6 ∨ op = 7 ∨ op = 9 → h.byte = 0 ∧ 2 ≤ h.size))

end Dax
