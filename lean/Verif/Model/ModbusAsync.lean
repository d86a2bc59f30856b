import Verif.Model.ModbusMaster
import Verif.Model.LibPath
import Verif.Model.LibData
/-!
# The command tag of a Modbus master

Every master port has a tag from which any command can be sent: `_add_async_command_tag` and `_async_command_callback` of
`src/modules/modbus/modmain.c`.
-/
namespace Dax.MbAsync
open Dax.Modbus

/-- The members of the type, `src/modules/modbus/modmain.c:98,141-150`. -/
def members : List Member :=
  [⟨nm "send", DAX_BOOL, 1⟩, ⟨nm "response", DAX_INT, 1⟩, ⟨nm "ipaddress", DAX_BYTE, 4⟩, ⟨nm "port", DAX_UINT, 1⟩,
   ⟨nm "node", DAX_BYTE, 1⟩, ⟨nm "function", DAX_BYTE, 1⟩, ⟨nm "register", DAX_UINT, 1⟩, ⟨nm "length", DAX_UINT, 1⟩, ⟨nm "data", DAX_UINT, 120⟩]

/-- Which type the tag of a port gets, `src/modules/modbus/modmain.c:132-157`: the type code is a variable that is set on the first call only.
`created` is what `dax_cdt_create` stores, `junk` what the variable holds. -/
def tagType (typeAdded : Bool) (created junk : Nat) : Nat × Bool := if typeAdded = false then (created, true) else (junk, true)

/-- The types for the ports in turn, `junk k` for the port `k`. -/
def tagTypes (created : Nat) (junk : Nat → Nat) : Bool → Nat → Nat → List Nat
  | _, _, 0 => []
  | added, k, n + 1 => (tagType added created (junk k)).1 :: tagTypes created junk (tagType added created (junk k)).2 (k + 1) n

/-- 16 bits with the low byte first. -/
def word (b : List Byte) (k : Nat) : Nat := (b.getD k 0).toNat + 256 * (b.getD (k + 1) 0).toNat

/-- What the callback puts into the command, `src/modules/modbus/modmain.c:110-115`; the area of data stays.  `b` has at least 15 bytes. -/
def setFields (b : List Byte) (cmd : Cmd) : Cmd :=
  { cmd with node := (b.getD 9 0).toNat, function := (b.getD 10 0).toNat, register := word b 11, length := word b 13 }

/-- The address as `s_addr` has it (the first byte of the member is the lowest) and the port, `src/modules/modbus/modmain.c:110-111`.  The sum is an
`int`: a last byte of 128 or more shifts into the sign, which the compilers in use take as the same bits. -/
def address (b : List Byte) : Nat × Nat :=
  ((b.getD 3 0).toNat + 256 * (b.getD 4 0).toNat + 65536 * (b.getD 5 0).toNat + 16777216 * (b.getD 6 0).toNat, word b 7)

/-- `src/modules/modbus/modmain.c:117-118`: the first three bytes. -/
def reply (lasterror : Nat) (b : List Byte) : List Byte := [0, BitVec.ofNat 8 lasterror, 0] ++ b.drop 3

/-- `_async_command_callback`, `src/modules/modbus/modmain.c:103-123`, once the tag was read: `b` are the bytes read; the result has those written
back.  `connected` tells whether `mb_get_connection` gives a descriptor (TCP); if not, `mb_send_command` returns before anything else
(`src/modules/modbus/modbus.c:687-691`). -/
def callback (fd : Int) (tcp connected : Bool) (retries : Nat) (o : Outside) (b : List Byte) (l : Link) : C (Link × List Byte) :=
  let l := { l with job := { l.job with cmd := setFields b l.job.cmd } }
  if tcp = true ∧ connected = false then .ok (l, reply l.job.st.lasterror b)
  else do
    let (l, _) ← sendCommand fd tcp retries o l
    .ok (l, reply l.job.st.lasterror b)

/-- The handle of the command tag, whose size is reduced to the members before `data`, `src/modules/modbus/modmain.c:160-166`: `index` and `type` are
those of the tag. -/
def commandHandle (index type : Nat) : Handle := ⟨index, 0, 0, 1, 255 - 240, type⟩

/-- `_async_command_callback` with reading and writing of the tag, `src/modules/modbus/modmain.c:103-123`.  The result of the write is not looked at. -/
def onSend (fd : Int) (tcp connected : Bool) (retries index type : Nat) (o : Outside) (l : Link) : C Link := do
  let (s, c, _, r, b) ← LibData.daxTagRead l.s fd l.c (commandHandle index type)
  if r ≠ .done 0 then .ok { l with s := s, c := c }
  else do
    let (l, b) ← callback fd tcp connected retries o b { l with s := s, c := c }
    let (s, c, _, _, _) ← LibData.daxTagWrite l.s fd l.c (commandHandle index type) b
    .ok { l with s := s, c := c }

end Dax.MbAsync
