import Verif.Model.Basic
/-!
# The loops of a Modbus master

When the commands of a master are sent: `client_loop`, `master_loop` and `mb_run_port` of `src/modules/modbus/modbus.c`.  Times are inputs: a
round is quick if it takes less than the scan rate.  What `mb_send_command` returns is an input as well; its effects are in ModbusMaster.
-/
namespace Dax.MbLoop

/-- What decides when a command is sent, `src/modules/modbus/modbus.h:176-205`: `cyclic` is the bit `MB_CONTINUOUS` of the mode. -/
structure SchedCmd where
  enable : Bool := true
  cyclic : Bool := true
  interval : Nat := 0
  icount : Nat := 0
deriving Repr, DecidableEq

/-- What the loops have of a port, `src/modules/modbus/modbus.h:227-281`.  `online` says whether `fd` is that of the open device; `scanning` is not
set by `initport` nor by `master_loop`.  The counter `attempt` does not overflow. -/
structure SchedPort where
  cmds : List SchedCmd
  maxattempts : Nat := 0
  inhibitTime : Nat := 0
  persist : Bool := false
  scanning : Bool := false
  attempt : Nat := 0
  inhibit : Bool := false
  online : Bool := true
deriving Repr, DecidableEq

/-- `mc->enable && (mc->mode & MB_CONTINUOUS) && (++mc->icount >= mc->interval)`, `src/modules/modbus/modbus.c:115,177`: the counter, and whether the
command is sent. -/
def tick (c : SchedCmd) : SchedCmd × Bool :=
  if c.enable && c.cyclic then
    if c.icount + 1 ≥ c.interval then ({ c with icount := 0 }, true) else ({ c with icount := c.icount + 1 }, false)
  else (c, false)

/-- The loop over the commands in `client_loop`, `src/modules/modbus/modbus.c:111-130`: the commands and the numbers of those sent.  `attempt` has
no effect there. -/
def clientScan : Nat → List SchedCmd → List SchedCmd × List Nat
  | _, [] => ([], [])
  | k, c :: cs =>
    let (c, due) := tick c
    let (cs, ks) := clientScan (k + 1) cs
    (c :: cs, if due then k :: ks else ks)

/-- `client_loop`, `src/modules/modbus/modbus.c:94-152`, `n` rounds of an enabled port: the commands and what each round sent. -/
def clientRun : Nat → List SchedCmd → List (List Nat)
  | 0, _ => []
  | n + 1, cs => (clientScan 0 cs).2 :: clientRun n (clientScan 0 cs).1

/-- After a command is sent, `src/modules/modbus/modbus.c:179-184`: `good` says that `mb_send_command` gave a positive number. -/
def attemptAfter (maxattempts : Nat) (good : Bool) (a : Nat) : Nat :=
  if good then 0 else if maxattempts ≠ 0 then a + 1 else a

/-- The loop over the commands in `master_loop`, `src/modules/modbus/modbus.c:174-193`: the port and, for each command that is sent, its number and
whether it reaches the device.  It ends early if there were too many attempts.  `mb_send_command` closes the descriptor if the port is neither
scanning nor persistent (`:714-741`).  Nothing sets `dienow`. -/
def masterScan (good : Nat → Bool) : Nat → List SchedCmd → SchedPort → SchedPort × List SchedCmd × List (Nat × Bool)
  | _, [], p => (p, [], [])
  | k, c :: cs, p =>
    let (c, due) := tick c
    if due then
      let sent := (k, p.online)
      let p := { p with attempt := attemptAfter p.maxattempts (good k) p.attempt, online := p.online && (p.scanning || p.persist) }
      if p.maxattempts ≠ 0 ∧ p.attempt ≥ p.maxattempts then ({ p with inhibit := true }, c :: cs, [sent])
      else
        let (p, cs, out) := masterScan good (k + 1) cs p
        (p, c :: cs, sent :: out)
    else
      let (p, cs, out) := masterScan good (k + 1) cs p
      (p, c :: cs, out)

/-- What one round gets from outside: which commands are answered, whether the device can be opened, whether the round is quick. -/
structure RoundIn where
  good : Nat → Bool := fun _ => true
  opens : Bool := true
  quick : Bool := true

/-- The end of a round, `src/modules/modbus/modbus.c:209-218`. -/
def rest (i : RoundIn) (p : SchedPort) : SchedPort := if i.quick ∧ p.persist = false then { p with online := false } else p

/-- The first part of a round of `master_loop`, for an enabled port, `src/modules/modbus/modbus.c:172-194`: the port and what was sent. -/
def scanPart (i : RoundIn) (p : SchedPort) : SchedPort × List (Nat × Bool) :=
  if p.inhibit then (p, []) else ({ (masterScan i.good 0 p.cmds p).1 with cmds := (masterScan i.good 0 p.cmds p).2.1 }, (masterScan i.good 0 p.cmds p).2.2)

/-- The second part, `src/modules/modbus/modbus.c:195-218`: none if the loop ends. -/
def inhibitPart (i : RoundIn) (p : SchedPort) : Option SchedPort :=
  if p.inhibit then
    if p.inhibitTime ≠ 0 then some (rest i { p with inhibit := !i.opens, online := i.opens }) else none
  else some (rest i p)

/-- One round of `master_loop`, `src/modules/modbus/modbus.c:171-218`. -/
def masterRound (i : RoundIn) (p : SchedPort) : Option SchedPort × List (Nat × Bool) := (inhibitPart i (scanPart i p).1, (scanPart i p).2)

/-- The rounds of `master_loop`. -/
def masterRun : List RoundIn → SchedPort → Option SchedPort × List (List (Nat × Bool))
  | [], p => (some p, [])
  | i :: is, p =>
    match masterRound i p with
    | (none, out) => (none, [out])
    | (some p, out) => let (q, outs) := masterRun is p; (q, out :: outs)

/-- How the thread of a serial port starts. -/
inductive Start where
  | running (tries : Nat)
  | blocked (tries : Nat)
deriving Repr, DecidableEq

/-- `mb_run_port` for a serial port, `src/modules/modbus/modbus.c:44-90`: try number `k` to open the device.  Each try waits at the barrier, whether it
succeeds or not; `passes` is how often the barrier still opens.  A barrier for all threads and `main` (`src/modules/modbus/modmain.c:470`) opens as often
as each of them comes to it, and `main` comes once (`:386`). -/
def runPort (opens : Nat → Bool) : Nat → Nat → Start
  | 0, k => .blocked (k + 1)
  | p + 1, k => if opens k then .running (k + 1) else runPort opens p (k + 1)

/-- How often `main` comes to the barrier, `src/modules/modbus/modmain.c:386,482`. -/
def mainWaits : Nat := 1

end Dax.MbLoop
