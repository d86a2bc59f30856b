import Verif.Model.LibData
import Verif.Model.MbCrc
/-!
# The Modbus module: `src/modules/modbus`

The slave (`create_response` and the two loops that call it) and the requests of the master.  The slave
keeps its registers in tags of the server, which it reads and writes through the client library
(`Verif/Model/LibData.lean`).  The machine is little endian.  Serial lines, sockets, time-outs and threads
are not modelled.  The contents of uninitialised memory are arguments.
-/
set_option autoImplicit false
namespace Dax.Modbus
open LibData

def MB_ERR_FUNCTION : Int := -9
def MB_ERR_BAD_ARG : Int := -14
def MB_ERR_OVERFLOW : Int := -16
def ME_WRONG_FUNCTION : Int := 1
def ME_BAD_ADDRESS : Int := 2
/-- `MB_BUFF_SIZE`, `src/modules/modbus/modbus.h:151`. -/
def MB_BUFF_SIZE : Nat := 256
/-- `MB_FRAME_LEN`, `src/modules/modbus/modbus.h:138`. -/
def MB_FRAME_LEN : Nat := 1024

/-- Conversion to `int8_t`. -/
def i8 (x : Int) : Int := let y := x % 256; if y < 128 then y else y - 256

/-- A Lua function that is called with node, function code, index and count, and gives an integer or fails.
What else it does is not modelled. -/
abbrev Callback := Nat → Nat → Nat → Nat → Option Int

/-- `mb_node_def`, `src/modules/modbus/modbus.h:208-223`: tags and sizes of the register sets.  A callback is
`none` if it is `LUA_REFNIL`. -/
structure Node where
  holdIdx : Int := 0
  holdSize : Nat := 0
  inputIdx : Int := 0
  inputSize : Nat := 0
  coilIdx : Int := 0
  coilSize : Nat := 0
  discIdx : Int := 0
  discSize : Nat := 0
  readCb : Option Callback := none
  writeCb : Option Callback := none

/-- What is in the uninitialised variables of the slave: `result` and `data` of `create_response`, `reg` of the functions
that answer to reads. -/
structure Junk where
  result : Int := 0
  reg : Nat → Byte := fun _ => 0
  data : Nat → Byte := fun _ => 0

/-- `uint16_t reg[150]`, `src/modules/modbus/modbus.c:759,809`, in bytes. -/
def Junk.regs (j : Junk) : List Byte := (List.range 300).map j.reg
/-- `uint16_t data[128]`, `src/modules/modbus/modbus.c:877`, in bytes. -/
def Junk.datas (j : Junk) : List Byte := (List.range 256).map j.data

/-- Register sets, `src/modules/modbus/modbus.h:114-117`. -/
inductive Reg where | hold | input | coil | disc
deriving Repr, DecidableEq

def Node.idx (nd : Node) : Reg → Int
  | .hold => nd.holdIdx | .input => nd.inputIdx | .coil => nd.coilIdx | .disc => nd.discIdx
def Node.size (nd : Node) : Reg → Nat
  | .hold => nd.holdSize | .input => nd.inputSize | .coil => nd.coilSize | .disc => nd.discSize

/-- The handle made in `slave_write_database` and `slave_read_database`, `src/modules/modbus/database.c:34-66,84-116`.  For
bits `(h.bit + count - 1) / 8` is computed in `int`, so that a count of 0 gives a size of 1. -/
def dbHandle (idx : Int) (reg : Reg) (off count : Nat) : Handle :=
  match reg with
  | .hold | .input => ⟨idx, off * 2, 0, count, count * 2, DAX_UINT⟩
  | .coil | .disc => ⟨idx, off / 8, off % 8, count, (off % 8 + count - 1) / 8 + 1, DAX_BOOL⟩

/-- `slave_read_database`, `src/modules/modbus/database.c:76-122`: errors are logged and ignored.  `mem` is the memory at
`data`; the library stores what it has read there. -/
def slaveRead (s : Server) (fd : Int) (c : TypeCache) (h : Handle) (mem : List Byte) : C (Server × TypeCache × List Byte) := do
  let (s, c, _, o, d) ← daxTagRead s fd c h
  if o = .endless then .ub "endless loop"
  else do
    let mem ← wr mem 0 d
    .ok (s, c, mem)

/-- `slave_write_database`, `src/modules/modbus/database.c:25-73`. -/
def slaveWrite (s : Server) (fd : Int) (c : TypeCache) (h : Handle) (mem : List Byte) : C (Server × TypeCache) := do
  let (s, c, _, o, _) ← daxTagWrite s fd c h mem
  if o = .endless then .ub "endless loop" else .ok (s, c)

/-- What a function that answers to a request gives: server, type cache, buffer and return value. -/
abbrev Result := Server × TypeCache × List Byte × Int

/-- `_create_exception`, `src/modules/modbus/modbus.c:744-750`. -/
def createException (buff : List Byte) (exception : Int) : C (List Byte × Int) :=
  match buff[1]? with
  | none => .ub "buffer"
  | some f => do
    let buff ← wr buff 1 [f ||| 0x80]
    let buff ← wr buff 2 [BitVec.ofInt 8 exception]
    .ok (buff, 3)

/-- Word `n` of an array of `uint16_t` in memory. -/
def wordAt (mem : List Byte) (n : Nat) : C (BitVec 16) :=
  match mem[2 * n]?, mem[2 * n + 1]? with
  | some lo, some hi => .ok (hi ++ lo)
  | _, _ => .ub "array index"

/-- The loop that packs bits, `src/modules/modbus/modbus.c:780-798`, with `k` bits to go. -/
def bitsLoop (reg : List Byte) : Nat → Nat → Nat → Nat → Nat → List Byte → C (List Byte)
  | 0, _, _, _, _, buff => .ok buff
  | k + 1, bit, word, buffbit, buffbyte, buff => do
    let w ← wordAt reg word
    match buff[buffbyte]? with
    | none => .ub "buffer"
    | some x =>
      let y := if w.getLsbD bit then x ||| BitVec.ofNat 8 (2 ^ buffbit) else x &&& ~~~ BitVec.ofNat 8 (2 ^ buffbit)
      bitsLoop reg k (if bit + 1 = 16 then 0 else bit + 1) (if bit + 1 = 16 then word + 1 else word)
        (if buffbit + 1 = 8 then 0 else buffbit + 1) (if buffbit + 1 = 8 then buffbyte + 1 else buffbyte)
        (buff.set buffbyte y)

/-- `_read_bits_response`, `src/modules/modbus/modbus.c:753-800`. -/
def readBits (s : Server) (fd : Int) (c : TypeCache) (nd : Node) (buff : List Byte) (size : Int) (reg : Reg) (j : Junk) :
    C Result := do
  let index := word16 (← getWord buff 2)
  let count := word16 (← getWord buff 4)
  let (s, c, mem) ← slaveRead s fd c (dbHandle (nd.idx reg) reg index count) j.regs
  let bytes : Int := ((count : Int) - 1).tdiv 8 + 1
  if bytes > size - 3 then .ok (s, c, buff, MB_ERR_OVERFLOW)
  else if index + count > nd.size reg then do
    let (buff, r) ← createException buff ME_BAD_ADDRESS
    .ok (s, c, buff, r)
  else do
    let buff ← wr buff 2 [BitVec.ofInt 8 bytes]
    let buff ← bitsLoop mem count 0 0 0 3 buff
    .ok (s, c, buff, bytes + 3)

/-- The loop that copies words, `src/modules/modbus/modbus.c:829-831`: `n` words done, `k` to go. -/
def wordsLoop (reg : List Byte) : Nat → Nat → List Byte → C (List Byte)
  | 0, _, buff => .ok buff
  | k + 1, n, buff => do
    let w ← rd reg (2 * n) 2
    let buff ← wr buff (3 + 2 * n) w.reverse
    wordsLoop reg k (n + 1) buff

/-- `_read_words_response`, `src/modules/modbus/modbus.c:803-833`. -/
def readWords (s : Server) (fd : Int) (c : TypeCache) (nd : Node) (buff : List Byte) (size : Int) (reg : Reg) (j : Junk) :
    C Result := do
  let index := word16 (← getWord buff 2)
  let count := word16 (← getWord buff 4)
  let (s, c, mem) ← slaveRead s fd c (dbHandle (nd.idx reg) reg index count) j.regs
  if (count : Int) * 2 > size - 3 then .ok (s, c, buff, MB_ERR_OVERFLOW)
  else if index + count > nd.size reg then do
    let (buff, r) ← createException buff ME_BAD_ADDRESS
    .ok (s, c, buff, r)
  else do
    let buff ← wr buff 2 [BitVec.ofNat 8 (count * 2)]
    let buff ← wordsLoop mem count 0 buff
    .ok (s, c, buff, count * 2 + 3)

/-- `_check_function_code_exception`, `src/modules/modbus/modbus.c:839-865`: is the function refused? -/
def badFunction (nd : Node) (tcp : Bool) (function : Nat) : Bool :=
  if function = 1 ∨ function = 5 ∨ function = 15 then nd.coilSize == 0
  else if function = 2 then nd.discSize == 0
  else if function = 3 ∨ function = 6 ∨ function = 16 then nd.holdSize == 0
  else if function = 4 then nd.inputSize == 0
  else if function = 8 then tcp
  else true

/-- The loop of function 15, `src/modules/modbus/modbus.c:963-973`: `n` bits done, `k` to go. -/
def coilsLoop (buff : List Byte) : Nat → Nat → Nat → Nat → List Byte → C (List Byte)
  | 0, _, _, _, data => .ok data
  | k + 1, n, word, bit, data =>
    match buff[7 + n / 8]?, data[2 * word + bit / 8]? with
    | some x, some y =>
      let y := if x.getLsbD (n % 8) then y ||| BitVec.ofNat 8 (2 ^ (bit % 8)) else y &&& ~~~ BitVec.ofNat 8 (2 ^ (bit % 8))
      coilsLoop buff k (n + 1) (if bit + 1 = 16 then word + 1 else word) (if bit + 1 = 16 then 0 else bit + 1)
        (data.set (2 * word + bit / 8) y)
    | _, _ => .ub "array index"

/-- The loop of function 16, `src/modules/modbus/modbus.c:983-985`. -/
def holdLoop (buff : List Byte) : Nat → Nat → List Byte → C (List Byte)
  | 0, _, data => .ok data
  | k + 1, n, data => do
    let w ← rd buff (7 + 2 * n) 2
    let data ← wr data (2 * n) w.reverse
    holdLoop buff k (n + 1) data

/-- The end of `create_response`, `src/modules/modbus/modbus.c:993-1021`, after a write of `count` registers. -/
def afterWrite (nd : Node) (node function index count : Nat) (buff : List Byte) : C (List Byte × Int) :=
  let result := match nd.writeCb with
    | none => 0
    | some f => match f node function index count with
      | none => 0
      | some r => i8 r
  if result ≠ 0 then createException buff result else .ok (buff, 6)

/-- The writing functions of `create_response`, `src/modules/modbus/modbus.c:931-987`. -/
def writeFunction (s : Server) (fd : Int) (c : TypeCache) (nd : Node) (node function : Nat) (buff : List Byte) (j : Junk) :
    C Result := do
  let index := word16 (← getWord buff 2)
  let count := word16 (← getWord buff 4)
  if function = 5 then
    if index ≥ nd.coilSize then do
      let (buff, r) ← createException buff ME_BAD_ADDRESS
      .ok (s, c, buff, r)
    else do
      let data ← wr j.datas 0 [if count ≠ 0 then 1 else 0, 0]
      let (s, c) ← slaveWrite s fd c (dbHandle nd.coilIdx .coil index 1) data
      let (buff, r) ← afterWrite nd node function index 1 buff
      .ok (s, c, buff, r)
  else if function = 6 then
    if index ≥ nd.holdSize then do
      let (buff, r) ← createException buff ME_BAD_ADDRESS
      .ok (s, c, buff, r)
    else do
      let data ← wr j.datas 0 [BitVec.ofNat 8 count, BitVec.ofNat 8 (count / 256)]
      let (s, c) ← slaveWrite s fd c (dbHandle nd.holdIdx .hold index 1) data
      let (buff, r) ← afterWrite nd node function index 1 buff
      .ok (s, c, buff, r)
  else if function = 15 then
    if index + count > nd.coilSize then do
      let (buff, r) ← createException buff ME_BAD_ADDRESS
      .ok (s, c, buff, r)
    else do
      let data ← coilsLoop buff count 0 0 0 j.datas
      let (s, c) ← slaveWrite s fd c (dbHandle nd.coilIdx .coil index count) data
      let (buff, r) ← afterWrite nd node function index count buff
      .ok (s, c, buff, r)
  else
    if index + count > nd.holdSize then do
      let (buff, r) ← createException buff ME_BAD_ADDRESS
      .ok (s, c, buff, r)
    else do
      let data ← holdLoop buff count 0 j.datas
      let (s, c) ← slaveWrite s fd c (dbHandle nd.holdIdx .hold index count) data
      let (buff, r) ← afterWrite nd node function index count buff
      .ok (s, c, buff, r)

/-- The node that answers, `src/modules/modbus/modbus.c:882-891`: node 0 stands in for nodes that are not configured.  The array
has 248 entries, but is allocated with room for 248 whole structures and cleared
(`src/modules/modbus/modopt.c:311-316`), so that the nodes 248 to 255 are found to be not configured. -/
def findNode (nodes : List (Option Node)) (node : Nat) : Option (Nat × Node) :=
  match nodes[node]? with
  | some (some nd) => some (node, nd)
  | _ => match nodes[0]? with
    | some (some nd) => some (0, nd)
    | _ => none

/-- The variable `result` before the first test, `src/modules/modbus/modbus.c:893-913`: only set if the node has a
read callback that is called and does not fail. -/
def readResult (nd : Node) (node function : Nat) (buff : List Byte) (j : Junk) : C Int :=
  match nd.readCb with
  | none => .ok (i8 j.result)
  | some f =>
    if function = 1 ∨ function = 2 ∨ function = 3 ∨ function = 4 then do
      let index := word16 (← getWord buff 2)
      let count := word16 (← getWord buff 4)
      match f node function index count with
      | none => .ok (i8 j.result)
      | some r => .ok (i8 r)
    else .ok (i8 j.result)

/-- `create_response`, `src/modules/modbus/modbus.c:873-1022`.  `buff` is the memory from the node number to the
end of the receive buffer. -/
def createResponse (s : Server) (fd : Int) (c : TypeCache) (nodes : List (Option Node)) (tcp : Bool) (buff : List Byte) (size : Int)
    (j : Junk) : C Result :=
  match buff[0]?, buff[1]? with
  | some n0, some f0 =>
    match findNode nodes n0.toNat with
    | none => .ok (s, c, buff, 0)
    | some (node, nd) => do
      let function := f0.toNat
      let result ← readResult nd node function buff j
      if result ≠ 0 then do
        let (buff, r) ← createException buff result
        .ok (s, c, buff, r)
      else if badFunction nd tcp function then do
        let (buff, r) ← createException buff ME_WRONG_FUNCTION
        .ok (s, c, buff, r)
      else if function = 1 then readBits s fd c nd buff size .coil j
      else if function = 2 then readBits s fd c nd buff size .disc j
      else if function = 3 then readWords s fd c nd buff size .hold j
      else if function = 4 then readWords s fd c nd buff size .input j
      else if function = 8 then .ok (s, c, buff, size.tdiv 2)
      else writeFunction s fd c nd node function buff j
  | _, _ => .ub "buffer"

/-- The end of `_mb_read` of the serial slave, `src/modules/modbus/mbslave.c:77-100`: a frame of `len` bytes is in
the buffer.  The results are the bytes sent and the return value. -/
def rtuServe (s : Server) (fd : Int) (c : TypeCache) (nodes : List (Option Node)) (buff : List Byte) (len : Nat) (j : Junk) :
    C (Server × TypeCache × Option (List Byte) × Int) := do
  if len = 0 then .ok (s, c, none, 0)
  else if ← crc16check buff len then do
    let (s, c, buff, r) ← createResponse s fd c nodes false buff MB_BUFF_SIZE j
    if r > 0 then do
      let crc ← crc16 buff r.toNat
      let buff ← putWord buff r.toNat crc
      let out ← rd buff 0 (r + 2)
      .ok (s, c, some out, 0)
    else if r < 0 then .ok (s, c, none, r)
    else .ok (s, c, none, 0)
  else .ok (s, c, none, 0)

/-- `_mb_read` of the TCP server, `src/modules/modbus/mbserver.c:118-166`: the piece `d` (1 to 100 bytes) has been read from a
connection whose buffer `buff` holds `n` bytes.  The results are the new buffer and number of bytes, what is
sent, and the return value. -/
def tcpServe (s : Server) (fd : Int) (c : TypeCache) (nodes : List (Option Node)) (buff : List Byte) (n : Nat) (d : List Byte) (j : Junk) :
    C (Server × TypeCache × List Byte × Nat × Option (List Byte) × Int) := do
  if d.length + n > MB_BUFF_SIZE then .ok (s, c, buff, n, none, MB_ERR_OVERFLOW)
  else do
    let buff ← wr buff n d
    let n := n + d.length
    if n > 5 then do
      let msgsize := word16 (← getWord buff 4)
      if n ≥ msgsize + 6 then do
        let (s, c, b, r) ← createResponse s fd c nodes true (buff.drop 6) (MB_BUFF_SIZE - 6) j
        let buff := buff.take 6 ++ b
        if r > 0 then do
          let buff ← wr buff 4 [BitVec.ofInt 8 (r / 256), BitVec.ofInt 8 r]
          let out ← rd buff 0 (r + 6)
          .ok (s, c, buff, 0, some out, 0)
        else if r < 0 then .ok (s, c, buff, n, none, r)
        else .ok (s, c, buff, n, none, 0)
      else .ok (s, c, buff, n, none, 0)
    else .ok (s, c, buff, n, none, 0)

/-- `server_loop` as far as one connection is concerned, `src/modules/modbus/mbserver.c:276-285`: `_mb_read` for one piece after the other, with the
contents of the uninitialised variables for each; an overflow is logged, any other error ends the loop.  The results are what was sent and the return value.
Simplified: the other connections are left out, and no second passes in which nothing arrives on any connection
(`mbserver.c:234-236` then empties all buffers). -/
def tcpRun (fd : Int) (nodes : List (Option Node)) (s : Server) (c : TypeCache) (buff : List Byte) (n : Nat) : List (List Byte × Junk) →
    C (Server × TypeCache × List Byte × Nat × List (List Byte) × Int)
  | [] => .ok (s, c, buff, n, [], 0)
  | (d, j) :: ds => do
    let (s, c, buff, n, out, r) ← tcpServe s fd c nodes buff n d j
    if r ≠ 0 ∧ r ≠ MB_ERR_OVERFLOW then .ok (s, c, buff, n, out.toList, r)
    else do
      let (s, c, buff, n, outs, r) ← tcpRun fd nodes s c buff n ds
      .ok (s, c, buff, n, out.toList ++ outs, r)

/-! ## The master -/

/-- The part of `mb_cmd` that makes a request, `src/modules/modbus/modbus.h:176-205`. -/
structure Cmd where
  enable : Nat := 1
  node : Nat := 0
  function : Nat := 0
  register : Nat := 0
  length : Nat := 0
  data : List Byte := []
  lastcrc : Nat := 0
  firstrun : Bool := false
deriving Repr, DecidableEq

/-- `mb_set_command`, `src/modules/modbus/mbcmds.c:94-159`: the size of the new data area; its contents are kept as far as
they fit, the rest is `junk` (`realloc`).  Arguments are `uint8_t` and `uint16_t`. -/
def setCommand (cmd : Cmd) (node function reg length : Nat) (junk : Nat → Byte) : Cmd × Int :=
  if node < 1 ∨ node > 247 then (cmd, MB_ERR_BAD_ARG)
  else
    let cmd := { cmd with node := node }
    if ¬ (function = 1 ∨ function = 2 ∨ function = 3 ∨ function = 4 ∨ function = 5 ∨ function = 6 ∨ function = 15 ∨ function = 16) then
      (cmd, MB_ERR_FUNCTION)
    else
      let cmd := { cmd with function := function, register := reg }
      if (function = 1 ∨ function = 2 ∨ function = 15) ∧ (length < 1 ∨ length > 2000) then (cmd, MB_ERR_BAD_ARG)
      else if (function = 3 ∨ function = 4 ∨ function = 16) ∧ (length < 1 ∨ length > 125) then (cmd, MB_ERR_BAD_ARG)
      else
        let size := if function = 1 ∨ function = 2 ∨ function = 15 then (length - 1) / 8 + 1
          else if function = 3 ∨ function = 4 ∨ function = 16 then length * 2
          else if function = 5 then 1 else 2
        let data := (List.range size).map fun i => cmd.data.getD i (junk i)
        ({ cmd with length := length, data := data }, 0)

/-- The two bytes of a `uint16_t` in the order of the protocol. -/
def beWord (x : Nat) : List Byte := [BitVec.ofNat 8 (x / 256), BitVec.ofNat 8 x]

/-- The checksum or word that decides whether a conditional request is sent, for functions 15 and 16,
`src/modules/modbus/modbus.c:275-284,300-302` (and `:453-462,478-480`). -/
def condWord (cmd : Cmd) : C Nat :=
  if cmd.function = 15 ∧ cmd.length ≤ 16 then
    if cmd.length > 8 then
      match cmd.data with
      | a :: b :: _ => .ok (a.toNat + 256 * b.toNat)
      | _ => .ub "command data"
    else match cmd.data with
      | a :: _ => .ok a.toNat
      | _ => .ub "command data"
  else do
    let w ← crc16 cmd.data cmd.data.length
    .ok (word16 w)

/-- The variable `crc` at the decision, `src/modules/modbus/modbus.c:273-285,299-303`: uninitialised if the command is continuous. -/
def condCrc (cmd : Cmd) (junk : Nat) : C Nat := if cmd.enable ≠ 1 then condWord cmd else .ok junk

/-- Copy of bytes one by one, `src/modules/modbus/modbus.c:290-292,468-470`: the bound is read from `buff[lim]` before every step. -/
def byteLoop (data : List Byte) (lim base : Nat) : Nat → Nat → List Byte → C (List Byte)
  | 0, _, _ => .ub "fuel"
  | fuel + 1, n, buff =>
    match buff[lim]? with
    | none => .ub "buffer"
    | some b =>
      if n < b.toNat then
        match data[n]? with
        | none => .ub "command data"
        | some x => do
          let buff ← wr buff (base + n) [x]
          byteLoop data lim base fuel (n + 1) buff
      else .ok buff

/-- Copy of words, `src/modules/modbus/modbus.c:307-309,485-487`. -/
def cmdWords (data : List Byte) (base : Nat) : Nat → Nat → List Byte → C (List Byte)
  | 0, _, buff => .ok buff
  | k + 1, n, buff => do
    let w ← rd data (2 * n) 2
    let buff ← wr buff (base + 2 * n) w.reverse
    cmdWords data base k (n + 1) buff

/-- What is built in the buffer: `none` if nothing is to be sent, otherwise the buffer, the length (as the variable
`length` has it) and the command with its new memory of what was sent. -/
abbrev Built := Option (List Byte × Nat × Cmd)

/-- First byte of the data. -/
def firstByte (cmd : Cmd) : C Nat :=
  match cmd.data with
  | a :: _ => .ok a.toNat
  | [] => .ub "command data"

/-- The switch of `sendRTUrequest`, `src/modules/modbus/modbus.c:233-319`.  `buff` is uninitialised.  `length` is a
`uint8_t`.  For an unknown function it stays uninitialised; these are refused by `mb_set_command` and left out
(`ub`).  For unconditional commands of functions 15 and 16 `lastcrc` gets an uninitialised value (`junk`). -/
def buildRtu (cmd : Cmd) (buff : List Byte) (junk : Nat) : C Built := do
  let buff ← wr buff 0 [BitVec.ofNat 8 cmd.node, BitVec.ofNat 8 cmd.function]
  if cmd.function = 1 ∨ cmd.function = 2 ∨ cmd.function = 3 ∨ cmd.function = 4 then do
    let buff ← wr buff 2 (beWord cmd.register)
    let buff ← wr buff 4 (beWord cmd.length)
    .ok (some (buff, 6, cmd))
  else if cmd.function = 5 then do
    let temp ← firstByte cmd
    if cmd.enable = 1 ∨ temp ≠ cmd.lastcrc ∨ cmd.firstrun = false then do
      let buff ← wr buff 2 (beWord cmd.register)
      let buff ← wr buff 4 [if temp ≠ 0 then 0xff else 0]
      let buff ← wr buff 5 [0]
      .ok (some (buff, 6, { cmd with firstrun := true, lastcrc := temp }))
    else .ok none
  else if cmd.function = 6 then do
    let temp ← firstByte cmd
    if cmd.enable = 1 ∨ temp ≠ cmd.lastcrc then do
      let buff ← wr buff 2 (beWord cmd.register)
      let buff ← wr buff 4 (beWord temp)
      .ok (some (buff, 6, { cmd with lastcrc := temp }))
    else .ok none
  else if cmd.function = 15 then do
    let crc ← condCrc cmd junk
    if cmd.enable = 1 ∨ crc ≠ cmd.lastcrc then do
      let buff ← wr buff 2 (beWord cmd.register)
      let buff ← wr buff 4 (beWord cmd.length)
      let buff ← wr buff 6 [BitVec.ofInt 8 (((cmd.length : Int) - 1).tdiv 8 + 1)]
      let buff ← byteLoop cmd.data 7 7 257 0 buff
      match buff[7]? with
      | none => .ub "buffer"
      | some b => .ok (some (buff, (7 + b.toNat) % 256, { cmd with lastcrc := crc }))
    else .ok none
  else if cmd.function = 16 then do
    let crc ← condCrc cmd junk
    if cmd.enable = 1 ∨ crc ≠ cmd.lastcrc then do
      let buff ← wr buff 2 (beWord cmd.register)
      let buff ← wr buff 4 (beWord cmd.length)
      let buff ← wr buff 6 [BitVec.ofNat 8 (cmd.length * 2)]
      let buff ← cmdWords cmd.data 7 cmd.length 0 buff
      .ok (some (buff, (7 + cmd.length * 2) % 256, { cmd with lastcrc := crc }))
    else .ok none
  else .ub "uninitialised length"

/-- `sendRTUrequest`, `src/modules/modbus/modbus.c:227-331`: the bytes that are sent. -/
def sendRtu (cmd : Cmd) (buff : List Byte) (junk : Nat) : C (Option (List Byte × Cmd)) := do
  match ← buildRtu cmd buff junk with
  | none => .ok none
  | some (buff, length, cmd) => do
    let crc ← crc16 buff length
    let buff ← putWord buff length crc
    let out ← rd buff 0 (length + 2)
    .ok (some (out, cmd))

/-- The switch of `sendTCPrequest`, `src/modules/modbus/modbus.c:405-497`; `length` is a `uint16_t`. -/
def buildTcp (tid : Nat) (cmd : Cmd) (buff : List Byte) (junk : Nat) : C Built := do
  let buff ← wr buff 0 (beWord tid)
  let buff ← wr buff 2 [0, 0]
  let buff ← wr buff 6 [BitVec.ofNat 8 cmd.node, BitVec.ofNat 8 cmd.function]
  if cmd.function = 1 ∨ cmd.function = 2 ∨ cmd.function = 3 ∨ cmd.function = 4 then do
    let buff ← wr buff 8 (beWord cmd.register)
    let buff ← wr buff 10 (beWord cmd.length)
    .ok (some (buff, 6, cmd))
  else if cmd.function = 5 then do
    let temp ← firstByte cmd
    if cmd.enable = 1 ∨ temp ≠ cmd.lastcrc ∨ cmd.firstrun = false then do
      let buff ← wr buff 8 (beWord cmd.register)
      let buff ← wr buff 10 [if temp ≠ 0 then 0xff else 0]
      let buff ← wr buff 5 [0]
      .ok (some (buff, 6, { cmd with firstrun := true, lastcrc := temp }))
    else .ok none
  else if cmd.function = 6 then do
    let temp ← firstByte cmd
    if cmd.enable = 1 ∨ temp ≠ cmd.lastcrc then do
      let buff ← wr buff 8 (beWord cmd.register)
      let w ← rd cmd.data 0 2
      let buff ← wr buff 10 w.reverse
      .ok (some (buff, 6, { cmd with lastcrc := temp }))
    else .ok none
  else if cmd.function = 15 then do
    let crc ← condCrc cmd junk
    if cmd.enable = 1 ∨ crc ≠ cmd.lastcrc then do
      let buff ← wr buff 8 (beWord cmd.register)
      let buff ← wr buff 10 (beWord cmd.length)
      let buff ← wr buff 12 [BitVec.ofInt 8 (((cmd.length : Int) - 1).tdiv 8 + 1)]
      let buff ← byteLoop cmd.data 12 13 257 0 buff
      match buff[12]? with
      | none => .ub "buffer"
      | some b => .ok (some (buff, 7 + b.toNat, { cmd with lastcrc := crc }))
    else .ok none
  else if cmd.function = 16 then do
    let crc ← condCrc cmd junk
    if cmd.enable = 1 ∨ crc ≠ cmd.lastcrc then do
      let buff ← wr buff 8 (beWord cmd.register)
      let buff ← wr buff 10 (beWord cmd.length)
      let buff ← wr buff 12 [BitVec.ofNat 8 (cmd.length * 2)]
      let buff ← cmdWords cmd.data 13 cmd.length 0 buff
      .ok (some (buff, (7 + cmd.length * 2) % 65536, { cmd with lastcrc := crc }))
    else .ok none
  else .ub "uninitialised length"

/-- `sendTCPrequest`, `src/modules/modbus/modbus.c:399-509`. -/
def sendTcp (tid : Nat) (cmd : Cmd) (buff : List Byte) (junk : Nat) : C (Option (List Byte × Cmd)) := do
  match ← buildTcp tid cmd buff junk with
  | none => .ok none
  | some (buff, length, cmd) => do
    let buff ← wr buff 4 (beWord length)
    let out ← rd buff 0 (length + 6)
    .ok (some (out, cmd))

/-- The loop of `handleresponse` for functions 3 and 4, `src/modules/modbus/modbus.c:583-585`. -/
def respWords (buff : List Byte) : Nat → Nat → List Byte → C (List Byte)
  | 0, _, data => .ok data
  | k + 1, n, data => do
    let w ← rd buff (2 * n + 3) 2
    let data ← wr data (2 * n) w.reverse
    respWords buff k (n + 1) data

/-- `handleresponse`, `src/modules/modbus/modbus.c:562-596`: new data of the command and the return value. -/
def handleResponse (buff : List Byte) (cmd : Cmd) : C (List Byte × Int) :=
  match buff[0]?, buff[1]?, buff[2]? with
  | some b0, some b1, some b2 =>
    if b1.toNat ≥ 128 then .ok (cmd.data, b2.toNat)
    else if b0.toNat ≠ cmd.node then .ok (cmd.data, 3)
    else if b1.toNat ≠ cmd.function then .ok (cmd.data, 1)
    else if cmd.function = 1 ∨ cmd.function = 2 then do
      let d ← rd buff 3 b2.toNat
      let data ← wr cmd.data 0 d
      .ok (data, 0)
    else if cmd.function = 3 ∨ cmd.function = 4 then do
      let data ← respWords buff (b2.toNat / 2) 0 cmd.data
      .ok (data, 0)
    else .ok (cmd.data, 0)
  | _, _, _ => .ub "buffer"

end Dax.Modbus
