import Verif.Model.Modbus
/-!
# The Modbus master: an exchange with a slave, `mb_send_command`

What arrives on the line is an argument.  A serial line delivers pieces until it is quiet for a frame time; a
connection delivers a stream, of which one `read` takes what is there.  `write` takes all bytes.  The tag
of a command is in the server; `dax_tag_handle` gives `find`.  Connections, locks and waiting are not modelled; the counters
(`unsigned int`) do not wrap.
-/
set_option autoImplicit false
namespace Dax.Modbus
open LibData

/-- `ME_WRONG_DEVICE` is in `handleResponse`; `ME_CHECKSUM`, `ME_TIMEOUT`, `ME_EXCEPTION`,
`src/modules/modbus/modbus.h:96-101`. -/
def ME_EXCEPTION : Nat := 0x80
def ME_CHECKSUM : Nat := 4
def ME_TIMEOUT : Nat := 8

/-- The counters of a command, `src/modules/modbus/modbus.h:190-195`. -/
structure Stat where
  requests : Nat := 0
  responses : Nat := 0
  timeouts : Nat := 0
  crcerrors : Nat := 0
  exceptions : Nat := 0
  lasterror : Nat := 0
deriving Repr, DecidableEq

/-- The loop of `getRTUresponse` as long as data comes, `src/modules/modbus/modbus.c:355-359`: `read` stores a piece behind
those before.  There is no check against the end of the buffer. -/
def fill : List Byte → Nat → List (List Byte) → C (List Byte × Nat)
  | buff, ptr, [] => .ok (buff, ptr)
  | buff, ptr, p :: ps => do
    let buff ← wr buff ptr p
    fill buff (ptr + p.length) ps

/-- `getRTUresponse`, `src/modules/modbus/modbus.c:346-378`: buffer and result. -/
def getRtu (buff : List Byte) (pieces : List (List Byte)) : C (List Byte × Int) := do
  let (buff, n) ← fill buff 0 pieces
  if n > 0 then
    if ← crc16check buff n then .ok (buff, n) else .ok (buff, -1)
  else .ok (buff, 0)

/-- `getTCPresponse`, `src/modules/modbus/modbus.c:517-549`: buffer, result and the bytes that stay in the stream.  `avail` is
empty if `select` runs out of time.  The length given to `memcpy` is negative if less than a header has come. -/
def getTcp (buff avail : List Byte) : C (List Byte × Int × List Byte) :=
  let d := avail.take MB_BUFF_SIZE
  if d.length > 0 then
    if d.length < 6 then .ub "memcpy with negative length"
    else do
      let buff ← wr buff 0 (d.drop 6)
      .ok (buff, (d.length : Int) - 6, avail.drop MB_BUFF_SIZE)
  else .ok (buff, 0, [])

/-- A command with its tag and counters: `handle` is `data_h`, `none` as long as its index is 0. -/
structure Job where
  cmd : Cmd
  handle : Option Handle := none
  st : Stat := {}
deriving Repr, DecidableEq

/-- The beginning of `_get_write_data` and `_send_read_data`, `src/modules/modbus/modbus.c:609-619,634-644`. -/
def jobHandle (job : Job) (find : Option Handle) : Job :=
  match job.handle with
  | some _ => job
  | none => match find with
    | none => job
    | some h => { job with handle := some (if job.cmd.data.length < h.size then { h with size := job.cmd.data.length } else h) }

/-- `_get_write_data`, `src/modules/modbus/modbus.c:605-622`; the caller ignores the result. -/
def getWriteData (s : Server) (fd : Int) (c : TypeCache) (job : Job) (find : Option Handle) : C (Server × TypeCache × Job) :=
  let job := jobHandle job find
  match job.handle with
  | none => .ok (s, c, job)
  | some h => do
    let (s, c, _, o, d) ← daxTagRead s fd c h
    if o = .endless then .ub "endless loop"
    else do
      let data ← wr job.cmd.data 0 d
      .ok (s, c, { job with cmd := { job.cmd with data := data } })

/-- `_send_read_data`, `src/modules/modbus/modbus.c:630-647`. -/
def sendReadData (s : Server) (fd : Int) (c : TypeCache) (job : Job) (find : Option Handle) : C (Server × TypeCache × Job) :=
  let job := jobHandle job find
  match job.handle with
  | none => .ok (s, c, job)
  | some h => do
    let (s, c, _, o, _) ← daxTagWrite s fd c h job.cmd.data
    if o = .endless then .ub "endless loop" else .ok (s, c, job)

/-- What one exchange gets from outside: what is heard after each request, the tag handle, and the contents of the
uninitialised buffers and of the variable `crc`. -/
structure Outside where
  heard : Nat → List (List Byte) := fun _ => []
  find : Option Handle := none
  buff : List Byte
  junk : Nat := 0

/-- The state of an exchange: server, type cache, command, number of the next request (TCP), bytes left in the stream, receive
buffer, and the frames sent. -/
structure Link where
  s : Server
  c : TypeCache
  job : Job
  tid : Nat := 0
  pending : List Byte := []
  buff : List Byte
  sent : List (List Byte) := []

/-- The frame sent over either kind of port. -/
def frameFor (tcp : Bool) (tid : Nat) (cmd : Cmd) (o : Outside) : C (Option (List Byte × Cmd)) :=
  if tcp then sendTcp tid cmd o.buff o.junk else sendRtu cmd o.buff o.junk

/-- `sendRTUrequest` and `sendTCPrequest` with counter, `src/modules/modbus/modbus.c:227-331,399-509`.  The input of a serial line is
discarded. -/
def sendRequest (tcp : Bool) (o : Outside) (l : Link) : C (Option Link) := do
  let r ← frameFor tcp l.tid l.job.cmd o
  let tid := if tcp then (l.tid + 1) % 65536 else l.tid
  match r with
  | none => .ok none
  | some (out, cmd) => .ok (some { l with
      tid := tid, sent := l.sent ++ [out], pending := if tcp then l.pending else []
      job := { l.job with cmd := cmd, st := { l.job.st with requests := l.job.st.requests + 1 } } })

/-- `getresponse`: buffer and message length are in the new state. -/
def receive (tcp : Bool) (heard : List (List Byte)) (l : Link) : C (Link × Int) :=
  if tcp then do
    let (buff, n, rest) ← getTcp l.buff (l.pending ++ heard.flatten)
    .ok ({ l with buff := buff, pending := rest }, n)
  else do
    let (buff, n) ← getRtu l.buff heard
    .ok ({ l with buff := buff }, n)

/-- A message has come, `src/modules/modbus/modbus.c:713-727`. -/
def answered (fd : Int) (o : Outside) (l : Link) : C Link := do
  let (data, r) ← handleResponse l.buff l.job.cmd
  let st := { l.job.st with responses := l.job.st.responses + 1 }
  let job := { l.job with cmd := { l.job.cmd with data := data } }
  if r > 0 then
    .ok { l with job := { job with st := { st with exceptions := st.exceptions + 1, lasterror := r.toNat ||| ME_EXCEPTION } } }
  else
    let job := { job with st := { st with lasterror := 0 } }
    if 1 ≤ job.cmd.function ∧ job.cmd.function ≤ 4 then do
      let (s, c, job) ← sendReadData l.s fd l.c job o.find
      .ok { l with s := s, c := c, job := job }
    else .ok { l with job := job }

/-- The body of the retry loop, `src/modules/modbus/modbus.c:698-735`: the result, if the loop ends here. -/
def tryOnce (fd : Int) (tcp : Bool) (o : Outside) (heard : List (List Byte)) (l : Link) : C (Link × Option Int) := do
  match ← sendRequest tcp o l with
  | none => .ok ({ l with tid := if tcp then (l.tid + 1) % 65536 else l.tid }, some 0)
  | some l => do
    let (l, msglen) ← receive tcp heard l
    if msglen > 0 then do
      let l ← answered fd o l
      .ok (l, some msglen)
    else
      let st := l.job.st
      .ok ({ l with job := { l.job with st := if msglen = 0 then { st with timeouts := st.timeouts + 1, lasterror := ME_TIMEOUT }
        else { st with crcerrors := st.crcerrors + 1, lasterror := ME_CHECKSUM } } }, none)

/-- The retry loop, `src/modules/modbus/modbus.c:698-741`: try number `n`, `k` retries left. -/
def tryLoop (fd : Int) (tcp : Bool) (o : Outside) : Nat → Nat → Link → C (Link × Int)
  | 0, n, l => do
    let (l, r) ← tryOnce fd tcp o (o.heard n) l
    .ok (l, r.getD (-(l.job.st.lasterror : Int)))
  | k + 1, n, l => do
    let (l, r) ← tryOnce fd tcp o (o.heard n) l
    match r with
    | some r => .ok (l, r)
    | none => tryLoop fd tcp o k (n + 1) l

/-- `mb_send_command`, `src/modules/modbus/modbus.c:657-742`, over an open port.  A negative number of retries is like 0. -/
def sendCommand (fd : Int) (tcp : Bool) (retries : Nat) (o : Outside) (l : Link) : C (Link × Int) :=
  if l.job.cmd.enable = 0 then .ok (l, 0)
  else do
    let l := { l with buff := o.buff }
    let f := l.job.cmd.function
    let l ← if f = 5 ∨ f = 6 ∨ f = 15 ∨ f = 16 then do
        let (s, c, job) ← getWriteData l.s fd l.c l.job o.find
        .ok { l with s := s, c := c, job := job }
      else .ok l
    tryLoop fd tcp o retries 0 l

end Dax.Modbus
