import Verif.Model.ModbusMaster
/-!
# The configuration of the Modbus module and its connections: `src/modules/modbus/modopt.c`, `mbcmds.c`, `mbports.c`, `modmain.c`

The tables of the configuration script are records.  A number is given by its integral part, a field that is missing or not a number is 0.  A
string without NUL, `none` if it is missing.  Memory is never short.
-/
set_option autoImplicit false
namespace Dax.MbConf
open Dax.Modbus

def MB_MASTER : Nat := 0
def MB_SLAVE : Nat := 1
def MB_RTU : Nat := 1
def MB_ASCII : Nat := 2
def MB_TCP : Nat := 4
def MB_NONE : Nat := 0
def MB_EVEN : Nat := 1
def MB_ODD : Nat := 2
def UDP_SOCK : Nat := 1
def TCP_SOCK : Nat := 2
def MB_CONTINUOUS : Nat := 1
def MB_ONCHANGE : Nat := 4
def MB_ONWRITE : Nat := 8
def MB_TRIGGER : Nat := 16
def MAX_RETRIES : Int := 100
def MB_MAX_SLAVE_NODES : Nat := 248

/-- A `double` converted to an unsigned type of `bits` bits: undefined if the integral part does not fit. -/
def castU (bits : Nat) (x : Int) : C Nat :=
  if 0 ≤ x ∧ x < 2 ^ bits then .ok x.toNat else .ub "floating number out of the range of the type"

/-- A `double` converted to a signed type of `bits + 1` bits. -/
def castS (bits : Nat) (x : Int) : C Int :=
  if -(2 ^ bits) ≤ x ∧ x < 2 ^ bits then .ok x else .ub "floating number out of the range of the type"

/-- `strcasestr(s, t) != NULL`. -/
def strcasestr (s t : Name) : Bool := (List.range (s.length + 1)).any fun i => strcaseeq ((s.drop i).take t.length) t

/-! ## Commands -/

/-- The table of a command, read by `_add_command`, `src/modules/modbus/modopt.c:357-465`.  `ipaddress` is what `inet_aton` makes of the
string. -/
structure CmdTable where
  node : Int := 0
  fcode : Int := 0
  register : Int := 0
  length : Int := 0
  mode : Option Name := none
  enable : Bool := false
  ipaddress : Option Nat := none
  port : Int := 0
  tagname : Option Name := none
  tagcount : Int := 0
  trigger : Option Name := none
  interval : Int := 0
deriving Repr, DecidableEq

/-- `mb_cmd`, `src/modules/modbus/modbus.h:176-205`, without the counters.  `initcmd` (`src/modules/modbus/mbcmds.c:25-49`) does not set `data_tag` and
`trigger_tag`: `none` is a pointer that was never set.  Address and port are not set either; they are read on TCP ports only, where
`_add_command` sets them. -/
structure MbCmd where
  cmd : Cmd
  mode : Nat := 0
  ip : Nat := 0
  port : Nat := 0
  interval : Nat := 0
  dataTag : Option Name := none
  triggerTag : Option Name := none
  tagcount : Nat := 0
deriving Repr, DecidableEq

/-- `mb_is_write_cmd`, `src/modules/modbus/mbcmds.c:196-208`. -/
def isWrite (c : Cmd) : Bool := c.function == 5 || c.function == 6 || c.function == 15 || c.function == 16

/-- The mode of a command, `src/modules/modbus/modopt.c:380-405`: it is 0 before. -/
def modeOf (c : Cmd) (mode : Option Name) : Nat :=
  let m := match mode with
    | none => 0
    | some s =>
      let m := if strcasestr s (nm "CONT") then MB_CONTINUOUS else 0
      let m := if strcasestr s (nm "TRIGGER") then m ||| MB_TRIGGER else m
      let m := if strcasestr s (nm "CHANGE") then (if isWrite c then m ||| MB_ONCHANGE else m) else m
      if strcasestr s (nm "WRITE") then (if isWrite c then m ||| MB_ONWRITE else m) else m
  if m = 0 then MB_CONTINUOUS else m

/-- The address `127.0.0.1` as `inet_aton` stores it. -/
def localhost : Nat := 0x0100007F

/-- The number of the port of the other side, `src/modules/modbus/modopt.c:429-433`: only for TCP. -/
def portNumber (tcp : Bool) (t : CmdTable) : C Nat := if tcp then castU 16 t.port else .ok 0

/-- `_add_command` after the command is in the list of the port, `src/modules/modbus/modopt.c:357-466`.  The result of `mb_set_command` is
only logged. -/
def fillCommand (tcp : Bool) (junk : Nat → Byte) (t : CmdTable) : C MbCmd := do
  let node ← castU 8 t.node
  let function ← castU 8 t.fcode
  let reg ← castU 16 t.register
  let length ← castU 16 t.length
  let (c, _) := setCommand {} node function reg length junk
  let mode := modeOf c t.mode
  let c := { c with enable := if t.enable then 1 else 0 }
  let port ← portNumber tcp t
  let tagcount := u32 t.tagcount
  let interval ← castS 31 t.interval
  .ok { cmd := c
        mode := if mode &&& MB_TRIGGER ≠ 0 ∧ t.trigger = none then mode - MB_TRIGGER else mode
        ip := if tcp then t.ipaddress.getD localhost else 0
        port := if tcp then (if port = 0 then 502 else port) else 0
        interval := u32 interval
        dataTag := t.tagname
        triggerTag := if mode &&& MB_TRIGGER ≠ 0 then t.trigger else none
        tagcount := if tagcount = 0 then 1 else tagcount }

/-! ## Ports -/

/-- The registers of a unit, `mb_node_def`, `src/modules/modbus/modbus.h:208-223`: name and size of each kind. -/
structure UnitRegs where
  hold : Option (Name × Nat) := none
  input : Option (Name × Nat) := none
  coil : Option (Name × Nat) := none
  disc : Option (Name × Nat) := none
deriving Repr, DecidableEq

/-- `mb_port`, `src/modules/modbus/modbus.h:227-278`, as far as the configuration sets it.  The initial values are those of `initport`,
`src/modules/modbus/mbports.c:27-63`.  `baudrate` is the speed that the constant stands for, 0 for `B0`.  `nodes` has no entries for a
master, where the pointer is NULL. -/
structure Port where
  name : Option Name := none
  device : Option Name := none
  enable : Bool := true
  type : Nat := 0
  protocol : Nat := 0
  network : Bool := false
  baudrate : Nat := 9600
  databits : Int := 8
  stopbits : Int := 1
  parity : Nat := MB_NONE
  ipaddress : Name := nm "0.0.0.0"
  bindport : Nat := 5001
  socket : Nat := 0
  delay : Int := 0
  frame : Int := 1000
  retries : Int := 3
  scanrate : Int := 1000
  timeout : Int := 1000
  maxattempts : Int := 0
  inhibitTime : Nat := 0
  persist : Bool := true
  nodes : Nat → Option UnitRegs := fun _ => none
  commands : List MbCmd := []

/-- The table of a port, read by `_add_port`, `src/modules/modbus/modopt.c:53-320`.  `parity` is a number or a string. -/
structure PortTable where
  name : Option Name := none
  enable : Bool := false
  protocol : Option Name := none
  device : Option Name := none
  baudrate : Int := 0
  databits : Int := 0
  stopbits : Int := 0
  parity : Int ⊕ Option Name := .inr none
  ipaddress : Option Name := none
  bindport : Int := 0
  socket : Option Name := none
  type : Option Name := none
  delay : Int := 0
  frame : Int := 0
  scanrate : Int := 0
  timeout : Int := 0
  retries : Int := 0
  inhibit : Int := 0
  maxfailures : Int := 0
  persist : Bool := false

/-- `getbaudrate`, `src/modules/modbus/mbports.c:65-98`; Linux has no `B76800`. -/
def getbaudrate (b : Nat) : Nat :=
  if b ∈ [300, 600, 1200, 1800, 2400, 4800, 9600, 19200, 38400, 57600, 115200] then b else 0

/-- `mb_set_serial_port`, `src/modules/modbus/mbports.c:242-272`.  The parity is an argument that is not used. -/
def setSerialPort (p : Port) (device : Name) (baudrate databits : Int) (_parity : Nat) (stopbits : Int) : Port :=
  let p := { p with network := false, device := some device, baudrate := getbaudrate (u32 baudrate) }
  if p.baudrate = 0 then p
  else if 5 ≤ databits ∧ databits ≤ 8 then
    let p := { p with databits := databits }
    if stopbits = 1 ∨ stopbits = 2 then { p with stopbits := stopbits } else p
  else p

/-- `short` value of any integer. -/
def i16 (x : Int) : Int := if x % 65536 < 32768 then x % 65536 else x % 65536 - 65536

/-- The parity asked for, `src/modules/modbus/modopt.c:94-115`. -/
def parityOf (parity : Int ⊕ Option Name) : C Nat :=
  match parity with
  | .inl n => castU 8 n
  | .inr none => .ok MB_NONE
  | .inr (some s) => .ok (if strcaseeq s (nm "NONE") then MB_NONE else if strcaseeq s (nm "EVEN") then MB_EVEN
      else if strcaseeq s (nm "ODD") then MB_ODD else MB_NONE)

/-- `_get_serial_config`, `src/modules/modbus/modopt.c:51-119`. -/
def serialConfig (t : PortTable) (p : Port) : C Port := do
  let device := t.device.getD (nm "/dev/serial")
  let baudrate ← castS 31 t.baudrate
  let baudrate := if baudrate = 0 then 9600 else baudrate
  let databits ← castS 15 t.databits
  let databits := if databits < 7 ∨ databits > 8 then 8 else databits
  let stopbits ← castU 32 t.stopbits
  let stopbits := i16 stopbits
  let stopbits := if stopbits ≠ 1 ∧ stopbits ≠ 2 then 1 else stopbits
  let parity ← parityOf t.parity
  .ok (setSerialPort p device baudrate databits parity stopbits)

/-- `_get_network_config` and `mb_set_network_port`, `src/modules/modbus/modopt.c:121-158`, `src/modules/modbus/mbports.c:275-294`.
`strncpy` of 15 bytes: byte 15 is 0 or what it was, here text that ends there. -/
def networkConfig (t : PortTable) (p : Port) : C Port := do
  let bindport ← castU 32 t.bindport
  let socket := match t.socket with
    | none => TCP_SOCK
    | some s => if strcaseeq s (nm "TCP") then TCP_SOCK else if strcaseeq s (nm "UDP") then UDP_SOCK else TCP_SOCK
  .ok { p with
    network := true, ipaddress := (t.ipaddress.getD (nm "0.0.0.0")).take 15, bindport := if bindport = 0 then 502 else bindport, socket := socket }

/-- Protocol and kind of device, `src/modules/modbus/modopt.c:216-240`. -/
def protocolOf (t : PortTable) : Nat :=
  match t.protocol with
  | none => MB_RTU
  | some s => if strcaseeq s (nm "RTU") then MB_RTU else if strcaseeq s (nm "ASCII") then MB_ASCII
    else if strcaseeq s (nm "TCP") then MB_TCP else MB_RTU

/-- Master or slave, `src/modules/modbus/modopt.c:252-262`. -/
def typeOf (t : PortTable) : C Nat :=
  match t.type with
  | none => .ub "strcasecmp with NULL"
  | some s => .ok (if strcaseeq s (nm "MASTER") then MB_MASTER else if strcaseeq s (nm "SLAVE") then MB_SLAVE
    else if strcaseeq s (nm "CLIENT") then MB_MASTER else if strcaseeq s (nm "SERVER") then MB_SLAVE else MB_MASTER)

/-- The times and numbers of a port, `src/modules/modbus/modopt.c:266-307`.  With 0 retries it is the timeout that becomes 1. -/
def timesConfig (t : PortTable) (p : Port) : C Port := do
  let delay ← castU 32 t.delay
  let frame ← castU 32 t.frame
  let scanrate ← castU 32 t.scanrate
  let timeout ← castU 32 t.timeout
  let retries ← castU 32 t.retries
  let inhibit ← castU 32 t.inhibit
  let maxfailures ← castU 32 t.maxfailures
  let p := { p with delay := i32 delay, frame := if i32 frame > 0 then i32 frame else p.frame }
  let p := { p with scanrate := if i32 scanrate = 0 then 100 else i32 scanrate, timeout := if i32 timeout = 0 then 1000 else i32 timeout }
  let p := { p with retries := i32 retries }
  let p := { p with timeout := if p.retries = 0 then 1 else p.timeout }
  let p := { p with retries := if p.retries > MAX_RETRIES then MAX_RETRIES else p.retries }
  .ok { p with maxattempts := i32 maxfailures, inhibitTime := inhibit, persist := t.persist }

/-- Either kind of device, `src/modules/modbus/modopt.c:245-249`. -/
def deviceConfig (t : PortTable) (p : Port) : C Port := if protocolOf t = MB_TCP then networkConfig t p else serialConfig t p

/-- `_add_port` without the array of ports, `src/modules/modbus/modopt.c:198-320`, with `mb_new_port` and `mb_set_protocol`
(`src/modules/modbus/mbports.c:196-216,299-313`). -/
def newPort (t : PortTable) : C Port := do
  let p : Port := { name := t.name, enable := t.enable }
  let protocol := protocolOf t
  let p ← deviceConfig t p
  let type ← typeOf t
  timesConfig t { p with type := type, protocol := protocol }

/-! ## The script -/

/-- A call of the script.  Arguments are numbers (0 if they are not) and strings. -/
inductive Call where
  | port (t : PortTable)
  | command (p : Int) (t : CmdTable)
  | register (p node : Int) (tag : Option Name) (size kind : Int)

/-- Replaces entry `k` of the array of ports. -/
def setPort (ports : List Port) (k : Nat) (p : Port) : List Port := ports.set k p

/-- The registers of a unit after `_add_register`, `src/modules/modbus/modopt.c:546-570`: `none` if the kind is not known. -/
def UnitRegs.put (u : UnitRegs) (tag : Name) (size : Nat) (kind : Int) : Option UnitRegs :=
  if kind = 1 then some { u with hold := some (tag, size) }
  else if kind = 2 then some { u with input := some (tag, size) }
  else if kind = 3 then some { u with coil := some (tag, size) }
  else if kind = 4 then some { u with disc := some (tag, size) }
  else none

/-- `_add_register`, `src/modules/modbus/modopt.c:499-573`: the port and whether there was no error.  `lua_tointeger` is converted to `int`
and `unsigned int`.  The unit is made before the kind is checked. -/
def addRegister (p : Port) (node : Int) (tag : Option Name) (size kind : Int) : Port × Bool :=
  if p.type ≠ MB_SLAVE then (p, true)
  else
    let id := i32 node
    if id < 0 ∨ id ≥ MB_MAX_SLAVE_NODES then (p, false)
    else match tag with
      | none => (p, false)
      | some tag =>
        if u32 size = 0 ∨ u32 size > 65535 then (p, false)
        else
          let u := (p.nodes id.toNat).getD {}
          match u.put tag (u32 size) (i32 kind) with
          | some u => ({ p with nodes := fun k => if k = id.toNat then some u else p.nodes k }, true)
          | none => ({ p with nodes := fun k => if k = id.toNat then some u else p.nodes k }, false)

/-- `_add_command`, `src/modules/modbus/modopt.c:329-466`; the command is put at the end of the list (`add_cmd`, `src/modules/modbus/mbports.c:447-464`). -/
def addCommand (junk : Nat → Byte) (p : Port) (t : CmdTable) : C Port :=
  if p.type ≠ MB_MASTER then .ok p
  else do
    let c ← fillCommand (p.protocol == MB_TCP) junk t
    .ok { p with commands := p.commands ++ [c] }

/-- One call of the script: the ports after it and what it returns, `none` for a Lua error.  An error ends the script unless the script
catches it; both are covered, by scripts that go on and by scripts that do not.  The array of ports grows as needed
(`src/modules/modbus/modopt.c:175-197`). -/
def call (junk : Nat → Byte) (ports : List Port) : Call → C (List Port × Option Nat)
  | .port t => do
    let p ← newPort t
    .ok (ports ++ [p], some (ports.length + 1))
  | .command p t => do
    let p ← castS 31 p
    if p - 1 < 0 ∨ p - 1 ≥ ports.length then .ok (ports, none)
    else match ports[(p - 1).toNat]? with
      | none => .ok (ports, none)
      | some q => do
        let q ← addCommand junk q t
        .ok (setPort ports (p - 1).toNat q, some 0)
  | .register p node tag size kind =>
    if i32 p - 1 < 0 ∨ i32 p - 1 ≥ ports.length then .ok (ports, none)
    else match ports[(i32 p - 1).toNat]? with
      | none => .ok (ports, none)
      | some q =>
        let (q, ok) := addRegister q node tag size kind
        .ok (setPort ports (i32 p - 1).toNat q, if ok then some 0 else none)

/-- A script. -/
def script (junk : Nat → Byte) : List Port → List Call → C (List Port)
  | ports, [] => .ok ports
  | ports, k :: ks => do
    let (ports, _) ← call junk ports k
    script junk ports ks

/-! ## The pool of connections -/

def MB_INIT_CONNECTION_SIZE : Nat := 16
def MB_MAX_CONNECTION_SIZE : Nat := 2048

/-- `tcp_connection`, `src/modules/modbus/modbus.h:170-174`. -/
structure Conn where
  addr : Nat
  port : Nat
  fd : Int
deriving Repr, DecidableEq

/-- The connections of a port, and the descriptors that are open in the process with the address they are connected to (`none` for a socket
that is not connected). -/
structure Net where
  conns : List Conn := []
  size : Nat := MB_INIT_CONNECTION_SIZE
  fds : List (Int × Option (Nat × Nat)) := []
deriving Repr, DecidableEq

/-- What the system does when a connection is opened. -/
inductive Opened where
  | noSocket
  | refused (fd : Int)
  | made (fd : Int)
deriving Repr, DecidableEq

/-- `openIPport`, `src/modules/modbus/mbports.c:161-190`: the socket is not closed when there is no connection. -/
def openIPport (n : Net) (addr port : Nat) : Opened → Net × Int
  | .noSocket => (n, -1)
  | .refused fd => ({ n with fds := (fd, none) :: n.fds }, -1)
  | .made fd => ({ n with fds := (fd, some (addr, port)) :: n.fds }, fd)

/-- `_get_unused_connection`, `src/modules/modbus/mbports.c:398-418`: place and new size of the array, `none` for an error. -/
def unusedConnection (n : Net) : Option (Nat × Nat) :=
  match n.conns.findIdx? fun c => c.fd == 0 with
  | some k => some (k, n.size)
  | none =>
    if n.conns.length = n.size then
      if n.size ≥ MB_MAX_CONNECTION_SIZE then none else some (n.conns.length, n.size * 2)
    else some (n.conns.length, n.size)

/-- `mb_get_connection`, `src/modules/modbus/mbports.c:424-444`.  The error of `_get_unused_connection` is used as an index. -/
def getConnection (n : Net) (addr port : Nat) (o : Opened) : C (Net × Int) :=
  match n.conns.find? fun c => c.addr == addr && c.port == port with
  | some c => .ok (n, c.fd)
  | none =>
    let (n, fd) := openIPport n addr port o
    if fd ≥ 0 then
      match unusedConnection n with
      | none => .ub "index out of bounds"
      | some (k, size) =>
        let c : Conn := { addr := addr, port := port, fd := fd }
        .ok ({ n with conns := if k < n.conns.length then n.conns.set k c else n.conns ++ [c], size := size }, fd)
    else .ok (n, fd)

/-- `close`: the lowest that is known of this number; nothing if it is not open. -/
def closeFd (fds : List (Int × Option (Nat × Nat))) (fd : Int) : List (Int × Option (Nat × Nat)) := fds.filter fun x => x.1 ≠ fd

/-- `mb_close_port` of a network port, `src/modules/modbus/mbports.c:337-355`. -/
def closePort (n : Net) : Net :=
  { n with conns := [], fds := n.conns.foldl (fun l c => closeFd l c.fd) n.fds }

/-- What happens to the connections of a client port: a command is sent, `mb_send_command`, `src/modules/modbus/modbus.c:684-693,703-740`
(while the port is scanned or not); the port is closed after a scan, `src/modules/modbus/modbus.c:138-141`.  The steps are atomic here; `mb_close_port` does not
take the lock. -/
inductive Step where
  | send (addr port : Nat) (scanning : Bool) (o : Opened)
  | close
deriving Repr, DecidableEq

/-- One step: the state after it, and for a command the descriptor it is written to with what that is connected to (`none` if it is not
sent). -/
def netStep (persist : Bool) (n : Net) : Step → C (Net × Option (Int × Option (Nat × Nat)))
  | .send addr port scanning o => do
    let (n, fd) ← getConnection n addr port o
    if fd < 0 then .ok (n, none)
    else
      let dest := ((n.fds.find? fun x => x.1 == fd).map fun x => x.2).getD none
      let n := if ¬ scanning ∧ ¬ persist then { n with fds := closeFd n.fds fd } else n
      .ok (n, some (fd, dest))
  | .close => .ok (closePort n, none)

/-- A run, with the commands in order. -/
def netSteps (persist : Bool) : Net → List Step → C (Net × List (Option (Int × Option (Nat × Nat))))
  | n, [] => .ok (n, [])
  | n, x :: xs => do
    let (n, r) ← netStep persist n x
    let (n, rs) ← netSteps persist n xs
    .ok (n, r :: rs)

/-! ## Events of the commands -/

/-- A command of which the events are set up: `mode` and which events there are, in order. -/
structure EvCmd where
  mode : Nat
  made : List Nat := []
deriving Repr, DecidableEq

/-- What `dax_tag_handle`, and after it `dax_event_add`, return for each kind of event: 0, or the first code of an error. -/
structure Answers where
  write : Int
  change : Int
  trigger : Int
deriving Repr, DecidableEq

/-- One of the three parts of the loop, `src/modules/modbus/modmain.c:298-321,322-344,345-367`: `result` is only set if the mode has the bit;
the code of an error is increased by one. -/
def tryEvent (bit clear : Nat) (code : Int) (c : EvCmd) (result : Int) : EvCmd × Int :=
  if c.mode &&& bit = 0 then (c, result)
  else if code = 0 then ({ mode := c.mode &&& (255 - clear), made := c.made ++ [bit] }, 0)
  else (c, code + 1)

/-- The body of the loop for one command, `src/modules/modbus/modmain.c:297-369`. -/
def tryCommand (a : Answers) (c : EvCmd) (result : Int) : EvCmd × Int :=
  let (c, result) := tryEvent MB_ONWRITE (MB_ONWRITE ||| MB_ONCHANGE) a.write c result
  let (c, result) := tryEvent MB_ONCHANGE MB_ONCHANGE a.change c result
  tryEvent MB_TRIGGER MB_TRIGGER a.trigger c result

/-- `_setup_master_events`, `src/modules/modbus/modmain.c:290-371`: `result` is that of the last command that has one.
Failures of `malloc` are left out. -/
def setupEvents (ans : Nat → Answers) : Nat → List EvCmd → Int → List EvCmd × Int
  | _, [], result => ([], result)
  | k, c :: cs, result =>
    let (c, result) := tryCommand (ans k) c result
    let (cs, result) := setupEvents ans (k + 1) cs result
    (c :: cs, result)

/-- One pass over the ports, `src/modules/modbus/modmain.c:491-494`: `master_errors` is set to 0 for each port. -/
def setupPorts (ans : Nat → Nat → Answers) : Nat → List (List EvCmd) → Int → List (List EvCmd) × Int
  | _, [], errors => ([], errors)
  | k, p :: ps, _ =>
    let (p, errors) := setupEvents (ans k) 0 p 0
    let (ps, errors) := setupPorts ans (k + 1) ps errors
    (p :: ps, errors)

/-- The loop of `main`, `src/modules/modbus/modmain.c:425,487-517`, after `n` rounds: the ports and `master_errors`. -/
def rounds (ans : Nat → Nat → Nat → Answers) (ports : List (List EvCmd)) : Nat → List (List EvCmd) × Int
  | 0 => (ports, -1)
  | n + 1 =>
    let (ports, errors) := rounds ans ports n
    if errors ≠ 0 ∧ n < 60 then setupPorts (ans n) 0 ports errors else (ports, errors)

/-! ## The tag that enables the commands -/

/-- The bits of the tag, `_setup_port`, `src/modules/modbus/modmain.c:262-275`: `bits` is what `malloc` gives. -/
def enableBits : Nat → List Nat → List Byte → C (List Byte)
  | _, [], bits => .ok bits
  | n, e :: es, bits =>
    match bits[n / 8]? with
    | none => .ub "write outside the buffer"
    | some b =>
      let m : Byte := BitVec.ofNat 8 (2 ^ (n % 8))
      enableBits (n + 1) es (bits.set (n / 8) (if e ≠ 0 then b ||| m else b &&& ~~~m))

/-- `_enable_callback`, `src/modules/modbus/modmain.c:74-96`: `bits` is the tag. -/
def enableFrom (bits : List Byte) : Nat → List Cmd → C (List Cmd)
  | _, [] => .ok []
  | n, c :: cs =>
    match bits[n / 8]? with
    | none => .ub "read outside the buffer"
    | some b => do
      let cs ← enableFrom bits (n + 1) cs
      .ok ({ c with enable := if b &&& BitVec.ofNat 8 (2 ^ (n % 8)) ≠ 0 then 1 else 0 } :: cs)

end Dax.MbConf
