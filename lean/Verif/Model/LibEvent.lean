import Verif.Model.Basic
/-!
# Events in the client library: `src/lib/libevent.c` and the event queue of `src/lib/libmsg.c`

Callbacks, their user data and the functions that free it are numbers.  Not modelled: waiting
(a wait on an empty queue is a timeout; what arrives meanwhile is a separate step), locking,
failure of `malloc`, and what callbacks do to the state.
-/
namespace Dax.LibEv

/-- A message from the server: type and payload (`size` bytes of `data`). -/
structure Msg where
  type : Nat
  data : List Byte
deriving Repr, DecidableEq

/-- `event_db`, `src/lib/libdax.h:92-98`. -/
structure Entry where
  idx : Nat
  id : Nat
  udata : Nat
  callback : Option Nat
  free : Option Nat
deriving Repr, DecidableEq

/-- The fields of `dax_state` used here, `src/lib/libdax.h:103-131`.  `queue` is the array
`emsg_queue` (its length is `emsg_queue_size`): the message pointed to, `none` for a pointer
that is not set or not valid any more.  `events` is the allocated array (its length is
`event_size`), `none` where nothing was stored. -/
structure State where
  queue : List (Option Msg)
  qcount : Nat
  events : List (Option Entry)
  ecount : Nat
  last : Option Msg

/-- `dax_init`, `src/lib/libinit.c:65-77` (`EVENT_QUEUE_SIZE`, `src/lib/libdax.h:139`). -/
def init : State :=
  { queue := List.replicate 8 none, qcount := 0, events := [none], ecount := 0, last := none }

/-- The loop `for(n…) q[n] = q[n+1];` with `k` rounds to go. -/
def shiftLoop {α : Type} : Nat → Nat → List α → C (List α)
  | 0, _, q => .ok q
  | k + 1, n, q =>
    match q[n + 1]? with
    | none => .ub "read outside block"
    | some x => shiftLoop k (n + 1) (q.set n x)

/-- Storing into an array. -/
def putAt {α : Type} (q : List α) (n : Nat) (x : α) : C (List α) :=
  if n < q.length then .ok (q.set n x) else .ub "write outside block"

/-- `_read_next_message` after `_message_get`, `src/lib/libmsg.c:319-343`; `MSG_EVENT`
(`src/libcommon.h:63`) is bit 31 of the type. -/
def arrive (s : State) (m : Msg) : C State :=
  if m.type.testBit 31 then
    if s.qcount = s.queue.length then
      match s.queue[0]? with
      | some (some _) => do
        let q ← shiftLoop (s.queue.length - 1) 0 s.queue
        let q ← putAt q (s.queue.length - 1) (some m)
        .ok { s with queue := q }
      | _ => .ub "free of an invalid pointer"
    else do
      let q ← putAt s.queue s.qcount (some m)
      .ok { s with queue := q, qcount := s.qcount + 1 }
  else .ok { s with last := some m }

/-- `_pop_event`, `src/lib/libevent.c:178-193`. -/
def pop (s : State) : C (Msg × State) :=
  match s.queue[0]? with
  | some (some m) => do
    -- the first message is freed; its pointer stays behind if it is the only one
    let q ← shiftLoop (s.qcount - 1) 0 (s.queue.set 0 none)
    .ok (m, { s with queue := q, qcount := s.qcount - 1 })
  | _ => .ub "invalid message pointer"

/-- `ntohl` of four bytes. -/
def be4 (d : List Byte) : Nat := leNat d.reverse

/-- What the caller of a library function can see. -/
structure Ans where
  code : Int
  /-- callback, user data and event data handed to it -/
  invoked : Option (Nat × Nat × List Byte) := none
  /-- event identification filled in -/
  id : Option (Int × Int) := none
  /-- function freeing user data, and the user data -/
  freed : Option (Nat × Nat) := none
deriving Repr, DecidableEq

/-- The search loop of `dispatch_event`, `src/lib/libevent.c:159-171`: `k` entries to go. -/
def findLoop (events : List (Option Entry)) (idx id : Nat) : Nat → Nat → C (Option (Nat × Entry))
  | 0, _ => .ok none
  | k + 1, n =>
    match events[n]? with
    | some (some e) => if e.idx = idx ∧ e.id = id then .ok (some (n, e)) else
        findLoop events idx id k (n + 1)
    | _ => .ub "event array"

/-- `dispatch_event`, `src/lib/libevent.c:146-176`; `dax_event_get_data` in the callback sees
the bytes after the first eight. -/
def dispatch (s : State) (m : Msg) : C Ans :=
  if m.data.length < 8 then .ub "uninitialised message data"
  else do
    let idx := be4 (m.data.take 4)
    let eid := be4 ((m.data.drop 4).take 4)
    match ← findLoop s.events idx eid s.ecount 0 with
    | some (_, e) =>
      .ok { code := 0, invoked := e.callback.map (fun c => (c, e.udata, m.data.drop 8)),
            id := some (i32 idx, i32 eid) }
    | none => .ok { code := ERR_GENERIC }

/-- `dax_event_poll`, `src/lib/libevent.c:256-268`. -/
def poll (s : State) : C (State × Ans) :=
  if s.qcount > 0 then do
    let (m, s) ← pop s
    let a ← dispatch s m
    .ok (s, a)
  else .ok (s, { code := ERR_NOTFOUND })

/-- `ERR_TIMEOUT`, `src/opendax.h:120`. -/
def ERR_TIMEOUT : Int := -14

/-- `dax_event_wait`, `src/lib/libevent.c:206-241`. -/
def wait (s : State) : C (State × Ans) :=
  if s.qcount = 0 then .ok (s, { code := ERR_TIMEOUT })
  else do
    let (m, s) ← pop s
    let a ← dispatch s m
    .ok (s, a)

/-- `add_event`, `src/lib/libevent.c:89-118`. -/
def addEvent (s : State) (index id : Int) (udata : Nat) (callback free : Option Nat) :
    C (State × Ans) := do
  let ev := if s.ecount = s.events.length then s.events ++ List.replicate s.events.length none
            else s.events
  let ev ← putAt ev s.ecount (some { idx := u32 index, id := u32 id, udata := udata,
                                     callback := callback, free := free })
  .ok ({ s with events := ev, ecount := s.ecount + 1 }, { code := 0 })

/-- `del_event`, `src/lib/libevent.c:122-138`; the `memmove` of the following entries. -/
def delEvent (s : State) (index id : Int) : C (State × Ans) := do
  match ← findLoop s.events (u32 index) (u32 id) s.ecount 0 with
  | some (n, e) => do
    let ev ← shiftLoop (s.ecount - n - 1) n s.events
    .ok ({ s with events := ev, ecount := s.ecount - 1 },
      { code := 0, freed := e.free.map (fun f => (f, e.udata)) })
  | none => .ok (s, { code := ERR_NOTFOUND })

/-- What happens at a client. -/
inductive Op where
  | arrive (m : Msg)
  | poll
  | wait
  | add (index id : Int) (udata : Nat) (callback free : Option Nat)
  | del (index id : Int)
deriving Repr, DecidableEq

def step (s : State) : Op → C (State × Ans)
  | .arrive m => do
    let s ← arrive s m
    .ok (s, { code := 0 })
  | .poll => poll s
  | .wait => wait s
  | .add i d u c f => addEvent s i d u c f
  | .del i d => delEvent s i d

def run (s : State) : List Op → C (State × List Ans)
  | [] => .ok (s, [])
  | o :: os => do
    let (s, a) ← step s o
    let (s, as) ← run s os
    .ok (s, a :: as)

end Dax.LibEv
