import Verif.Model.ModbusMaster
import Verif.Spec.ModbusWrite
/-!
# Specification: exchanges of the Modbus master
-/
set_option autoImplicit false
namespace Dax.Modbus

/-- The counters after `n` more requests: each was answered, not answered in time, or answered with a wrong checksum, and only the last one can have been
answered. -/
structure Accounted (st st' : Stat) (n : Nat) : Prop where
  requests : st'.requests = st.requests + n
  outcome : st'.responses + st'.timeouts + st'.crcerrors = st.responses + st.timeouts + st.crcerrors + n
  once : st'.responses = st.responses ∨ (st'.responses = st.responses + 1 ∧ st.timeouts + st.crcerrors + n = st'.timeouts + st'.crcerrors + 1)
  mono : st.timeouts ≤ st'.timeouts ∧ st.crcerrors ≤ st'.crcerrors


/-- What comes after a request is of no use: nothing, or over a serial line bytes whose checksum is wrong. -/
def Useless (tcp : Bool) (heard : List (List Byte)) : Prop :=
  heard.flatten = [] ∨ (tcp = false ∧ heard.flatten.length ≤ 1024 ∧ crc16check heard.flatten heard.flatten.length = .ok false)

/-- The message that comes, in any pieces, is `ans`: with a correct checksum, or after a header of 6 bytes and not longer than 256 bytes in all. -/
def Delivers (tcp : Bool) (heard : List (List Byte)) (ans : List Byte) : Prop :=
  match tcp with
  | false => ∃ x y, heard.flatten = ans ++ [x, y] ∧ crc16check (ans ++ [x, y]) (ans.length + 2) = .ok true
  | true => ∃ hdr : List Byte, hdr.length = 6 ∧ heard.flatten = hdr ++ ans ∧ hdr.length + ans.length ≤ 256

/-- What a command takes over from an answer into its memory `data`: bits as they are, registers with the low byte first, and nothing from
exceptions and acknowledgements. -/
def taken (function : Nat) (data ans : List Byte) : List Byte :=
  if 128 ≤ code ans then data
  else match function with
    | 1 | 2 => ans.drop 3
    | 3 | 4 => bigAll (ans.drop 3)
    | _ => data

/-- The code of an exception, 0 for other answers. -/
def refusal (ans : List Byte) : Nat := if 128 ≤ code ans then (ans.getD 2 0).toNat else 0

/-- Commands for which the frame sent is the right one (see C56), and which are sent on every try. -/
def Sound (tcp : Bool) (cmd : Cmd) : Prop :=
  Configured cmd ∧ (cmd.enable = 1 ∨ (cmd.enable ≠ 0 ∧ cmd.function ≤ 4)) ∧
    (tcp = true → cmd.function ≠ 5) ∧
    (tcp = false → cmd.function ≠ 15 ∧ (cmd.function = 16 → cmd.length ≤ 124) ∧ (cmd.function = 6 → cmd.data[1]? = some 0))

/-- The bytes on the line for the request `f`. -/
def OnLine (tcp : Bool) (f out : List Byte) : Prop :=
  match tcp with
  | false => ∃ x y, out = f ++ [x, y] ∧ crc16check out out.length = .ok true
  | true => ∃ tid, out = big tid ++ [0, 0] ++ big f.length ++ f

end Dax.Modbus
