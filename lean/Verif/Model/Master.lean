import Verif.Model.Basic
/-!
# The process master: `src/master/process.c`, signal handler and main loop of `src/master/master.c`

Not modelled: `_arglist_tok`, user and group switching, `exec`, logging, `process_del` (never
called), the contents of `/proc` (the environment says whether a limit is exceeded).
-/
namespace Dax.Master

/-- `struct timeval` as filled in by `gettimeofday`. -/
structure Tv where
  sec : Int
  usec : Int
deriving Repr, DecidableEq

/-- `_difftimeval`, `src/master/process.c:53-60`.  `long` is 64 bits; the division truncates
towards zero.  Overflow of `long` is not modelled. -/
def diffMs (a b : Tv) : Int := (b.sec - a.sec) * 1000 + (b.usec - a.usec).tdiv 1000

/-- What happened to one process, in order: the first start (`none`: `fork` failed), being
reaped (with the clock reading taken then) and restarts (clock reading on which the decision was based, and start time or
`none` if `fork` failed).  Only recorded, never read by the code. -/
inductive PEv where
  | launch (begun : Option Tv)
  | died (t : Tv)
  | retry (asked : Tv) (begun : Option Tv)
deriving Repr, DecidableEq

/-- `dax_process`, `src/master/process.h:49-80`: the fields used by the restart logic.
`hot` and `fat` say whether the last values read exceed the configured CPU and memory limits
(`cpu > 0.0 && pcpu > cpu`, `mem > 0 && rss > mem`). -/
structure Proc where
  pid : Int := 0
  exit : Int := 0
  restart : Bool
  state : Nat
  restartdelay : Int := 0
  restartcount : Nat := 0
  start : Tv := ⟨0, 0⟩
  dead : Tv := ⟨0, 0⟩
  hot : Bool := false
  fat : Bool := false
  hist : List PEv := []
deriving Repr, DecidableEq

def PSTATE_STARTED : Nat := 1
def PSTATE_CONDEMNED : Nat := 4
def PSTATE_DEAD : Nat := 8
def SIGQUIT : Nat := 3
def SIGKILL : Nat := 9

/-- `dead_process`, `src/master/process.h:82-85`. -/
structure Slot where
  pid : Int := 0
  status : Int := 0
deriving Repr, DecidableEq

/-- `DPQ_SIZE`, `src/master/process.c:32-34`. -/
def DPQ_SIZE : Nat := 10

/-- The master: `_process_list`, `_dpq`, the static `count` of `process_scan`; and, recorded
only, the calls of `_cleanup_process` and of `kill`. -/
structure State where
  procs : List Proc
  dpq : List Slot := List.replicate DPQ_SIZE {}
  count : Nat := 0
  handled : List (Int × Int) := []
  kills : List (Int × Nat) := []
deriving Repr, DecidableEq

/-- `process_add` and the configuration call, `src/master/process.c:115-163`,
`src/master/mstr_config.c:178-231`: `state` is not assigned, its value comes from `malloc`. -/
def newProc (restart : Bool) (junk : Nat) : Proc := { restart := restart, state := junk }

/-- `process_start`, `src/master/process.c:264-299`, in the parent.  `fork` is the result of
`fork()`, `now` the clock after it. -/
def processStart (p : Proc) (fork : Int) (now : Tv) : Proc × Option Tv :=
  if fork > 0 then
    ({ p with pid := fork, exit := 0, start := now, state := PSTATE_STARTED }, some now)
  else (p, none)

/-- One round of the loop of `process_start_all`, `src/master/process.c:221-238`. -/
def processLaunch (p : Proc) (fork : Int) (now : Tv) : Proc :=
  let (p, b) := processStart p fork now
  { p with hist := p.hist ++ [.launch b] }

/-- `_process_restart`, `src/master/process.c:398-414`.  `asked` is only recorded. -/
def processRestart (p : Proc) (asked : Tv) (fork : Int) (now : Tv) : Proc :=
  let p := { p with restartcount := p.restartcount + 1 }
  let (p, b) := processStart p fork now
  let d := if p.restartdelay = 0 then 100 else p.restartdelay * 2
  let d := if d > 60000 then 60000 else d
  { p with restartdelay := d, hist := p.hist ++ [.retry asked b] }

/-- The effect of `_cleanup_process` on the entry it finds, `src/master/process.c:327-335`. -/
def reap (p : Proc) (status : Int) (now : Tv) : Proc :=
  { p with pid := 0, exit := status, state := PSTATE_DEAD, dead := now,
           hist := p.hist ++ [.died now] }

/-- `_get_process_pid` and `_cleanup_process`, `src/master/process.c:302-341`: the first entry
with that pid. -/
def cleanup : List Proc → Int → Int → Tv → List Proc
  | [], _, _, _ => []
  | p :: ps, pid, status, now =>
    if p.pid = pid then reap p status now :: ps else p :: cleanup ps pid status now

/-- `process_dpq_add`, `src/master/process.c:505-514`.  The pid is tested before the index, so
a full queue is read (and then written) beyond its end. -/
def dpqAdd : List Slot → Int → Int → C (List Slot)
  | [], _, _ => .ub "dead process queue overflow"
  | s :: q, pid, status =>
    if s.pid ≠ 0 then do
      let q ← dpqAdd q pid status
      .ok (s :: q)
    else .ok ({ pid := pid, status := status } :: q)

/-- `child_signal`, `src/master/master.c:120-132`, when `waitpid` returns the given children in
turn (its results that are not positive end the loop and are left out). -/
def childSignal (q : List Slot) : List (Int × Int) → C (List Slot)
  | [] => .ok q
  | (pid, status) :: r =>
    if pid > 0 then do
      let q ← dpqAdd q pid status
      childSignal q r
    else .ok q

/-- The signals that interrupt one round of the first loop of `process_scan`, and the clock. -/
structure SlotIn where
  before : List (Int × Int) := []
  during : List (Int × Int) := []
  now : Tv
deriving Repr, DecidableEq

/-- First loop of `process_scan`, `src/master/process.c:431-437`, from slot `n` on.  The signal
handler may run before the slot is tested and between the clean-up and the release of the
slot, or after the test if there is nothing to clean up (elsewhere in the round it makes no
difference: it only writes free slots). -/
def drain (m : State) (n : Nat) : List SlotIn → C State
  | [] => .ok m
  | x :: xs => do
    let q ← childSignal m.dpq x.before
    match q[n]? with
    | none => .ub "dead process queue index"
    | some sl =>
      if sl.pid ≠ 0 then do
        let q ← childSignal q x.during
        drain { m with procs := cleanup m.procs sl.pid sl.status x.now,
                       handled := m.handled ++ [(sl.pid, sl.status)],
                       dpq := q.set n { pid := 0, status := sl.status } } (n + 1) xs
      else do
        let q ← childSignal q x.during
        drain { m with dpq := q } (n + 1) xs

/-- What the system answers while the second loop of `process_scan` looks at one process: the
clock, the result of `fork` and the clock after it, and what `_process_get_cpu_stat` read
(`none`: it could not). -/
structure ProcIn where
  now : Tv
  fork : Int
  begun : Tv
  stat : Option (Bool × Bool)
deriving Repr, DecidableEq

/-- `_process_get_cpu_stat` and the comparison with the limits,
`src/master/process.c:343-396,467-476`. -/
def checkLimits (p : Proc) (stat : Option (Bool × Bool)) : Proc :=
  let p := match stat with
    | some (h, f) => { p with hot := h, fat := f }
    | none => p
  let p := if p.hot then { p with state := PSTATE_CONDEMNED } else p
  if p.fat then { p with state := PSTATE_CONDEMNED } else p

/-- Second loop of `process_scan`, one round, `src/master/process.c:442-485`: the process, the
signals sent and the time to sleep. -/
def scanProc (p : Proc) (count : Nat) (x : ProcIn) (sleep : Int) :
    Proc × List (Int × Nat) × Int :=
  if p.restart = true ∧ p.state = PSTATE_DEAD then
    let p := if diffMs p.start p.dead > 60000 then { p with restartdelay := 0 } else p
    let interval := i32 (diffMs p.dead x.now)
    if interval > p.restartdelay then (processRestart p x.now x.fork x.begun, [], sleep)
    else (p, [], if p.restartdelay - interval < sleep then i32 (p.restartdelay - interval) else sleep)
  else if u32 (count + p.pid) % 64 = 0 then
    let k1 := if p.state = PSTATE_CONDEMNED then [(p.pid, SIGKILL)] else []
    let p := checkLimits p x.stat
    let k2 := if p.state = PSTATE_CONDEMNED then [(p.pid, SIGQUIT)] else []
    (p, k1 ++ k2, sleep)
  else (p, [], sleep)

/-- Second loop of `process_scan`. -/
def scanProcs (count : Nat) : List Proc → List ProcIn → Int → List Proc × List (Int × Nat) × Int
  | p :: ps, x :: xs, sleep =>
    let (p, k, sleep) := scanProc p count x sleep
    let (ps, ks, sleep) := scanProcs count ps xs sleep
    (p :: ps, k ++ ks, sleep)
  | ps, _, sleep => (ps, [], sleep)

/-- `process_scan`, `src/master/process.c:422-490`: one input per slot and per process. -/
def processScan (m : State) (slots : List SlotIn) (ins : List ProcIn) : C (State × Int) :=
  if slots.length = DPQ_SIZE ∧ ins.length = m.procs.length then do
    let m ← drain m 0 slots
    let (ps, ks, sleep) := scanProcs m.count m.procs ins 60000
    .ok ({ m with procs := ps, kills := m.kills ++ ks, count := (m.count + 1) % 4294967296 },
      sleep)
  else .ub "not an input"

/-- What the master does: handle a child signal, or scan. -/
inductive Op where
  | signal (ds : List (Int × Int))
  | scan (slots : List SlotIn) (ins : List ProcIn)
deriving Repr, DecidableEq

/-- One step of the main loop or a signal, `src/master/master.c:76-102`. -/
def step (m : State) : Op → C State
  | .signal ds => do
    let q ← childSignal m.dpq ds
    .ok { m with dpq := q }
  | .scan slots ins => do
    let (m, _) ← processScan m slots ins
    .ok m

def run (m : State) : List Op → C State
  | [] => .ok m
  | o :: os => do
    let m ← step m o
    run m os

/-- Configuration and `process_start_all`: one `(restart flag, junk, fork result, clock)` per
process.  (Signals arriving meanwhile are the first `signal` operations.) -/
def boot (cfg : List (Bool × Nat × Int × Tv)) : State :=
  { procs := cfg.map fun (r, j, f, t) => processLaunch (newProc r j) f t }

end Dax.Master
