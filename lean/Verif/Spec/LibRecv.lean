import Verif.Model.LibRecv
/-!
# Specification: messages on a stream
-/
set_option autoImplicit false
namespace Dax.LibRecv
open LibEv (Msg)

/-- The four bytes of a number, most significant first. -/
def be32 (v : Nat) : List Byte :=
  [BitVec.ofNat 8 (v / 16777216), BitVec.ofNat 8 (v / 65536), BitVec.ofNat 8 (v / 256), BitVec.ofNat 8 v]

/-- A message as it is sent: size of the payload, type, payload. -/
def frame (m : Msg) : List Byte := be32 m.data.length ++ be32 m.type ++ m.data

/-- What the server may send: the type is a 32-bit number, the payload at most 4088 bytes. -/
def Fits (m : Msg) : Prop := m.type < 4294967296 ∧ m.data.length ≤ 4088

/-- Where the messages start in the stream, and where the stream ends. -/
def starts : Nat → List Msg → List Nat
  | p, [] => [p]
  | p, m :: ms => p :: starts (p + (frame m).length) ms

/-- The header that starts at `p` arrives in one piece, or nothing that follows it arrives together
with any part of it. -/
def HeaderWhole (cut : Nat → Bool) (p : Nat) : Prop :=
  cut (p + 8) = true ∨ ∀ k, 0 < k → k < 8 → cut (p + k) = false

end Dax.LibRecv
