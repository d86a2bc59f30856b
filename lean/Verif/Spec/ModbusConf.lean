import Verif.Model.ModbusConf
import Verif.Spec.Modbus
/-!
# What the configuration of the Modbus module means
-/
set_option autoImplicit false
namespace Dax.MbConf
open Dax.Modbus

/-! ## Scripts -/

/-- The ports the script asks for, in order. -/
def portCalls (cs : List Call) : List PortTable := cs.filterMap fun | .port t => some t | _ => none

/-- The commands for the port with the number `k` (the first is 1) that come after that port, in order. -/
def commandsFor (k : Nat) (cs : List Call) : List CmdTable :=
  (cs.foldl (fun (a : Nat × List CmdTable) c => match c with
    | .port _ => (a.1 + 1, a.2)
    | .command p t => if p = k ∧ k ≤ a.1 then (a.1, a.2 ++ [t]) else a
    | .register .. => a) (0, [])).2

/-- The registers of one kind that the script gives last to a unit of the port with the number `k`. -/
def registersFor (k node kind : Nat) (cs : List Call) : Option (Name × Nat) :=
  (cs.foldl (fun (a : Nat × Option (Name × Nat)) c => match c with
    | .port _ => (a.1 + 1, a.2)
    | .command .. => a
    | .register p n (some tag) size q =>
      if p = k ∧ k ≤ a.1 ∧ n = node ∧ q = kind ∧ 1 ≤ size ∧ size ≤ 65535 then (a.1, some (tag, size.toNat)) else a
    | .register .. => a) (0, none)).2

/-- The numbers given for registers are numbers of the C types. -/
def Plain : Call → Prop
  | .register p n _ size q => (-(2 ^ 31) ≤ p ∧ p < 2 ^ 31) ∧ (-(2 ^ 31) ≤ n ∧ n < 2 ^ 31) ∧ (0 ≤ size ∧ size < 2 ^ 32) ∧ (-(2 ^ 31) ≤ q ∧ q < 2 ^ 31)
  | _ => True

/-- The registers of one kind. -/
def UnitRegs.of (u : UnitRegs) : Nat → Option (Name × Nat)
  | 1 => u.hold
  | 2 => u.input
  | 3 => u.coil
  | 4 => u.disc
  | _ => none

/-! ## Commands -/

/-- A text contains a word, in any case of letters. -/
def Says (s : Option Name) (w : String) : Prop := ∃ t a x b, s = some t ∧ t = a ++ x ++ b ∧ x.map toLower = (nm w).map toLower

/-- A command as Modbus has it. -/
def Sensible (t : CmdTable) : Prop :=
  (1 ≤ t.node ∧ t.node ≤ 247) ∧ t.fcode ∈ [(1 : Int), 2, 3, 4, 5, 6, 15, 16] ∧
    (t.fcode ∈ [(1 : Int), 2, 15] → 1 ≤ t.length ∧ t.length ≤ 2000) ∧ (t.fcode ∈ [(3 : Int), 4, 16] → 1 ≤ t.length ∧ t.length ≤ 125)

/-- The command writes to the other side. -/
def Writes (t : CmdTable) : Prop := t.fcode ∈ [(5 : Int), 6, 15, 16]

/-- What is sent, and over which connection. -/
def SentAs (tcp : Bool) (t : CmdTable) (c : MbCmd) : Prop :=
  Configured c.cmd ∧ (c.cmd.node : Int) = t.node ∧ (c.cmd.function : Int) = t.fcode ∧ (c.cmd.register : Int) = t.register ∧
    (c.cmd.length : Int) = t.length ∧ (c.cmd.enable = 1 ↔ t.enable = true) ∧ (c.cmd.enable = 0 ↔ t.enable = false) ∧
    (tcp = true → (∀ a, t.ipaddress = some a → c.ip = a) ∧ (t.port ≠ 0 → (c.port : Int) = t.port) ∧ (t.port = 0 → c.port = 502))

/-- With which tag, and how often. -/
def WithTag (t : CmdTable) (c : MbCmd) : Prop :=
  (∀ n, t.tagname = some n → c.dataTag = some n) ∧ (0 < t.tagcount → t.tagcount < 2 ^ 32 → (c.tagcount : Int) = t.tagcount) ∧
    (t.tagcount = 0 → c.tagcount = 1) ∧ (0 ≤ t.interval → (c.interval : Int) = t.interval)

/-- On which occasions. -/
def OnOccasion (t : CmdTable) (c : MbCmd) : Prop :=
  (c.mode.testBit 4 = true ↔ Says t.mode "TRIGGER" ∧ t.trigger ≠ none) ∧
    (c.mode.testBit 4 = true → c.triggerTag = t.trigger) ∧
    (c.mode.testBit 2 = true ↔ Says t.mode "CHANGE" ∧ Writes t) ∧
    (c.mode.testBit 3 = true ↔ Says t.mode "WRITE" ∧ Writes t) ∧
    (c.mode.testBit 0 = true ↔ Says t.mode "CONT" ∨ ¬ (Says t.mode "TRIGGER" ∨ (Writes t ∧ (Says t.mode "CHANGE" ∨ Says t.mode "WRITE"))))

/-! ## Ports -/

/-- The words of a port. -/
def Word (s : Option Name) (w : String) : Prop := ∃ t, s = some t ∧ t.map toLower = (nm w).map toLower

/-- What the port is. -/
def KindAs (t : PortTable) (p : Port) : Prop :=
  p.name = t.name ∧ p.enable = t.enable ∧ p.persist = t.persist ∧
    (p.type = MB_SLAVE ↔ Word t.type "SLAVE" ∨ Word t.type "SERVER") ∧ (p.type = MB_MASTER ↔ p.type ≠ MB_SLAVE) ∧
    (p.protocol = MB_TCP ↔ Word t.protocol "TCP") ∧ (p.protocol = MB_ASCII ↔ Word t.protocol "ASCII") ∧
    (p.protocol = MB_RTU ↔ ¬ (Word t.protocol "TCP" ∨ Word t.protocol "ASCII")) ∧ (p.network = true ↔ p.protocol = MB_TCP)

/-- The speeds of a serial line. -/
def speeds : List Int := [300, 600, 1200, 1800, 2400, 4800, 9600, 19200, 38400, 57600, 115200]

/-- The serial line without its parity. -/
def LineAs (t : PortTable) (p : Port) : Prop :=
  p.network = false → p.device = some (t.device.getD (nm "/dev/serial")) ∧
    ((t.baudrate = 0 ∨ t.baudrate ∈ speeds) →
      (t.baudrate = 0 → p.baudrate = 9600) ∧ (t.baudrate ≠ 0 → (p.baudrate : Int) = t.baudrate) ∧
      (t.databits = 7 → p.databits = 7) ∧ (t.databits ≠ 7 → p.databits = 8) ∧
      (t.stopbits = 2 → p.stopbits = 2) ∧ (t.stopbits = 1 → p.stopbits = 1))

/-- The address of a server. -/
def ServerAs (t : PortTable) (p : Port) : Prop :=
  p.network = true → (t.ipaddress = none → p.ipaddress = nm "0.0.0.0") ∧ (∀ a, t.ipaddress = some a → a.length ≤ 15 → p.ipaddress = a) ∧
    (t.bindport = 0 → p.bindport = 502) ∧ (t.bindport ≠ 0 → (p.bindport : Int) = t.bindport) ∧
    (p.socket = UDP_SOCK ↔ Word t.socket "UDP") ∧ (p.socket = TCP_SOCK ↔ p.socket ≠ UDP_SOCK)

/-- The times without the timeout, for numbers of the C types. -/
def TimesAs (t : PortTable) (p : Port) : Prop :=
  (t.delay < 2 ^ 31 → p.delay = t.delay) ∧ (t.frame < 2 ^ 31 → p.frame = if t.frame = 0 then 1000 else t.frame) ∧
    (t.scanrate < 2 ^ 31 → p.scanrate = if t.scanrate = 0 then 100 else t.scanrate) ∧
    (t.retries < 2 ^ 31 → p.retries = min t.retries 100) ∧
    (t.maxfailures < 2 ^ 31 → p.maxattempts = t.maxfailures) ∧ (p.inhibitTime : Int) = t.inhibit

/-- The time to wait for an answer. -/
def TimeoutAs (t : PortTable) (p : Port) : Prop := t.timeout < 2 ^ 31 → p.timeout = if t.timeout = 0 then 1000 else t.timeout

/-- The parity asked for by a word. -/
def ParityAs (t : PortTable) (p : Port) : Prop :=
  ∀ w, t.parity = .inr w → (Word w "EVEN" → p.parity = MB_EVEN) ∧ (Word w "ODD" → p.parity = MB_ODD)

/-- What a call of `add_port` makes, but for the parity and, with 0 retries, the timeout. -/
structure PortAs (t : PortTable) (p : Port) : Prop where
  kind : KindAs t p
  line : LineAs t p
  server : ServerAs t p
  times : TimesAs t p
  timeout : 0 < t.retries → t.retries < 2 ^ 31 → TimeoutAs t p

/-! ## What a script makes -/

/-- What a call of `add_command` for a master makes. -/
def CmdAs (tcp : Bool) (t : CmdTable) (c : MbCmd) : Prop := WithTag t c ∧ (Sensible t → SentAs tcp t c ∧ OnOccasion t c)

/-- One port after the calls `cs`: it is the port number `k + 1`. -/
structure After (cs : List Call) (k : Nat) (t : PortTable) (p : Port) : Prop where
  port : PortAs t p
  parity : p.parity = MB_NONE
  count : p.type = MB_MASTER → p.commands.length = (commandsFor (k + 1) cs).length
  cmds : p.type = MB_MASTER → ∀ (j : Nat) x c, (commandsFor (k + 1) cs)[j]? = some x → p.commands[j]? = some c → CmdAs (p.protocol == MB_TCP) x c
  nocmds : p.type = MB_SLAVE → p.commands = []
  regs : p.type = MB_SLAVE → ∀ node kind, 1 ≤ kind → kind ≤ 4 → node < 248 → (p.nodes node).bind (fun u => u.of kind) = registersFor (k + 1) node kind cs
  noregs : p.type = MB_MASTER → p.nodes = fun _ => none

/-- All ports after the calls `cs`. -/
def Holds (cs : List Call) (ports : List Port) : Prop :=
  ports.length = (portCalls cs).length ∧ ∀ (k : Nat) t p, (portCalls cs)[k]? = some t → ports[k]? = some p → After cs k t p

end Dax.MbConf
