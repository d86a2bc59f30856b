import Verif.Model.MbCrc
/-!
# What a checksum is for

Independent of the tables in the code: bits of a frame in the order in which a serial line
sends them, error bursts, and the polynomial definition of the checksum.
-/
set_option autoImplicit false
namespace Dax

/-- Bit `k` of a frame in transmission order (each byte least significant bit first). -/
def frameBit (f : List Byte) (k : Nat) : Bool := (f.getD (k / 8) 0).getLsbD (k % 8)

/-- `g` is `f` with some bits corrupted, all of them within 16 consecutive bits. -/
def Burst (f g : List Byte) : Prop :=
  g.length = f.length ∧ g ≠ f ∧
    ∃ p, ∀ k, frameBit g k ≠ frameBit f k → p ≤ k ∧ k < p + 16

/-- One bit through the shift register of the Modbus polynomial x^16 + x^15 + x^2 + 1
(reflected: 0xA001). -/
def polyBit (c : BitVec 16) (b : Bool) : BitVec 16 :=
  let x := c ^^^ (if b then 1 else 0)
  if x.getLsbD 0 then (x >>> 1) ^^^ 0xA001 else x >>> 1

/-- The checksum register after the first `n` bits of a frame. -/
def polyCrc (f : List Byte) : Nat → BitVec 16
  | 0 => 0xFFFF
  | n + 1 => polyBit (polyCrc f n) (frameBit f n)

end Dax
