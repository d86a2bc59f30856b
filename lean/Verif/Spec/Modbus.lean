import Verif.Model.Modbus
import Verif.Spec.LibData
import Verif.Spec.Maps
/-!
# Specification: Modbus frames

Frames without checksum (serial line) or header (TCP): node, function code, then fields of 16 bits, high byte first.
-/
set_option autoImplicit false
namespace Dax.Modbus

/-- The 16-bit field at position `k`. -/
def field (f : List Byte) (k : Nat) : Nat := (f.getD k 0).toNat * 256 + (f.getD (k + 1) 0).toNat

/-- The function code. -/
def code (f : List Byte) : Nat := (f.getD 1 0).toNat

/-- A well formed answer to a request. -/
inductive Answer (req : List Byte) : List Byte → Prop
  /-- An exception: the function code with its highest bit set, and a code. -/
  | exception (x : Byte) : Answer req [req.getD 0 0, req.getD 1 0 ||| 0x80, x]
  /-- Coils or discrete inputs: the number of bytes, and as many bytes as are needed for the bits asked for. -/
  | bits (d : List Byte) (hf : code req = 1 ∨ code req = 2) (hd : d.length = (field req 4 + 7) / 8) (hs : d.length < 256) :
      Answer req (req.getD 0 0 :: req.getD 1 0 :: BitVec.ofNat 8 d.length :: d)
  /-- Registers: the number of bytes, two for each register asked for. -/
  | words (d : List Byte) (hf : code req = 3 ∨ code req = 4) (hd : d.length = 2 * field req 4) (hs : d.length < 256) :
      Answer req (req.getD 0 0 :: req.getD 1 0 :: BitVec.ofNat 8 d.length :: d)
  /-- Writes are answered with the beginning of the request. -/
  | echo (hf : code req = 5 ∨ code req = 6 ∨ code req = 15 ∨ code req = 16) (hl : 6 ≤ req.length) : Answer req (req.take 6)

/-- Requests whose data and whose answer fit into a buffer of `size` bytes; reads of bits ask for at least one. -/
def Limits (f : List Byte) (size : Nat) : Prop :=
  ((code f = 1 ∨ code f = 2) → 1 ≤ field f 4 ∧ 3 + (field f 4 + 7) / 8 ≤ size) ∧
  ((code f = 3 ∨ code f = 4) → 3 + 2 * field f 4 ≤ size) ∧
  (code f = 15 → 7 + (field f 4 + 7) / 8 ≤ size) ∧
  (code f = 16 → 7 + 2 * field f 4 ≤ size)

/-- Requests for at most 2000 bytes of a tag. -/
inductive Transfer (idx : Int) : Req → Prop
  | read (p k : Nat) (hp : p ≤ 200000) (hk : k ≤ 2000) : Transfer idx (.tagRead idx p k)
  | write (p : Nat) (d : List Byte) (hp : p ≤ 200000) (hk : d.length ≤ 2000) : Transfer idx (.tagWrite idx p d)
  | mask (p : Nat) (d m : List Byte) (hp : p ≤ 200000) (hk : d.length ≤ 2000) (hm : m.length = d.length) : Transfer idx (.tagMWrite idx p d m)

/-- The server does something defined with every such request for a register tag of the node. -/
def Serves (s : Server) (fd : Int) (nd : Node) : Prop := ∀ reg q, nd.size reg ≠ 0 → Transfer (nd.idx reg) q → ∃ x, handle s fd q = .ok x

/-- A tag for registers that is not used for anything else: an ordinary tag without override in force, that anybody may write and nobody
watches, that is not saved for the next start, and from which no mapping leads away. -/
def RegTag (s : Server) (i : Nat) : Prop := Ordinary s i ∧ NoMaps s i ∧ ∃ b, QuietData s i b ∧ b.length < 2147483648

/-- The node that answers to requests for node `k`, and its number: node 0 stands in for those that are not configured. -/
def Responsible (nodes : List (Option Node)) (k node : Nat) (nd : Node) : Prop :=
  (nodes[k]? = some (some nd) ∧ node = k) ∨ ((∀ x, nodes[k]? ≠ some (some x)) ∧ nodes[0]? = some (some nd) ∧ node = 0)

/-- The read callback of the node has no objection.  Without a callback, an uninitialised variable decides. -/
def Allowed (nd : Node) (j : Junk) (node : Nat) (f : List Byte) : Prop :=
  match nd.readCb with
  | none => j.result % 256 = 0
  | some g => ∃ r, g node (code f) (field f 2) (field f 4) = some r ∧ r % 256 = 0

/-- `count` registers from `index` on, kept in tag `i`, in the order of the protocol: high byte first. -/
def registersOf (M : Mem) (i index count : Nat) : List Byte :=
  (List.range count).flatMap fun m => [M i (2 * (index + m) + 1), M i (2 * (index + m))]

/-! ## Requests of the master -/

/-- 16 bits in the order of the protocol. -/
def big (x : Nat) : List Byte := [BitVec.ofNat 8 (x / 256), BitVec.ofNat 8 x]

/-- Registers as they are in memory (low byte first) in the order of the protocol. -/
def bigAll : List Byte → List Byte
  | lo :: hi :: d => hi :: lo :: bigAll d
  | _ => []

/-- The frame the protocol defines for a command, without checksum or header: `data` is the memory the command writes from: one byte
for a coil, one word for a register, bits packed into bytes for coils, words for registers. -/
def request (node function register count : Nat) (data : List Byte) : Option (List Byte) :=
  let head := [BitVec.ofNat 8 node, BitVec.ofNat 8 function] ++ big register
  match function with
  | 1 | 2 | 3 | 4 => some (head ++ big count)
  | 5 => some (head ++ [if data.take 1 = [0] then 0 else 0xff, 0])
  | 6 => some (head ++ bigAll (data.take 2))
  | 15 => some (head ++ big count ++ [BitVec.ofNat 8 ((count + 7) / 8)] ++ data.take ((count + 7) / 8))
  | 16 => some (head ++ big count ++ [BitVec.ofNat 8 (2 * count)] ++ bigAll (data.take (2 * count)))
  | _ => none


/-- The memory a command needs. -/
def area (function length : Nat) : Nat :=
  match function with
  | 1 | 2 | 15 => (length + 7) / 8
  | 3 | 4 | 16 => 2 * length
  | 5 => 1
  | _ => 2

/-- A command as the configuration makes it, with any contents of its memory. -/
def Configured (cmd : Cmd) : Prop :=
  (1 ≤ cmd.node ∧ cmd.node ≤ 247) ∧ cmd.function ∈ [1, 2, 3, 4, 5, 6, 15, 16] ∧ cmd.register < 65536 ∧
    ((cmd.function ∈ [1, 2, 15] → 1 ≤ cmd.length ∧ cmd.length ≤ 2000) ∧ (cmd.function ∈ [3, 4, 16] → 1 ≤ cmd.length ∧ cmd.length ≤ 125) ∧
      cmd.length < 65536) ∧ cmd.data.length = area cmd.function cmd.length

end Dax.Modbus
