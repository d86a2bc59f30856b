import Verif.Model.LibEvent
/-!
# How the server reads messages: `src/server/buffer.c`, `src/server/message.c:258-364`

The nodes of the buffer list, what a call of `read` returns for a client and what the server does with
it: hand a message to its function, or close the connection.  The functions themselves are in
`Verif/Model/Message.lean`.  Not modelled: accepting connections, and the order in which
one round of `msg_receive` looks at the clients (each call of `buff_read` is a step of its own).
-/
set_option autoImplicit false
namespace Dax.Buff
open LibEv (Msg be4)

/-- `dax_buffnode`, `src/server/buffer.c:51-56`; `fd` 0 means free. -/
structure Node where
  fd : Int
  index : Int
  buf : List Byte
deriving Repr, DecidableEq

/-- The list `_buffer`, the option `min_buffers`, and what `malloc` returns for the next nodes. -/
structure State where
  nodes : List Node
  min : Int
  junk : Nat → List Byte

/-- `_new_buffnode`, `src/server/buffer.c:61-74`. -/
def fresh (junk : List Byte) : Node := { fd := 0, index := 0, buf := junk }

/-- `buff_initialize`, `src/server/buffer.c:77-100`. -/
def init (min : Int) (junk : Nat → List Byte) : State :=
  { nodes := (List.range min.toNat).map fun n => fresh (junk n), min := min,
    junk := fun n => junk (min.toNat + n) }

/-- `find_buff_slot`, `src/server/buffer.c:104-133`: position of the node for `fd`.  Without any node
`_buffer` is NULL and dereferenced. -/
def slot (s : State) (fd : Int) : C (Nat × State) :=
  match s.nodes.findIdx? (·.fd = fd) with
  | some i => .ok (i, s)
  | none =>
    match s.nodes.findIdx? (·.fd = 0) with
    | some i => .ok (i, { s with nodes := s.nodes.modify i (fun n => { n with fd := fd }) })
    | none =>
      if s.nodes = [] then .ub "NULL buffer list"
      else .ok (s.nodes.length, { s with nodes := s.nodes ++ [{ fresh (s.junk 0) with fd := fd }],
                                         junk := fun n => s.junk (n + 1) })

/-- `buff_free`, `src/server/buffer.c:182-196`. -/
def free (s : State) (fd : Int) : State :=
  match s.nodes.findIdx? (·.fd = fd) with
  | some i => { s with nodes := s.nodes.modify i (fun n => { n with fd := 0, index := 0 }) }
  | none => s

/-- `buff_freeall`, `src/server/buffer.c:202-226`. -/
def freeAll (s : State) : State :=
  let ns := s.nodes.map fun n => { n with fd := 0, index := 0 }
  { s with nodes := if (ns.length : Int) > s.min ∧ 1 < ns.length then ns.dropLast else ns }

/-- `msg_dispatcher`, `src/server/message.c:345-364`: the message handed on, if any.  The size is
reduced by 8 modulo 2^32; `message.data` has 4088 bytes, `buff` has 4096. -/
def dispatcher (s : State) (fd : Int) (buff : List Byte) : C (State × Option Msg) :=
  let size := u32 ((be4 (buff.take 4) : Int) - 8)
  let type := be4 ((buff.drop 4).take 4)
  if type = 0 ∨ type > 27 then .ok (s, none)
  else if size > 4088 then .ub "write outside block"
  else do
    let d ← rd buff 8 size
    .ok (free s fd, some { type := type, data := d })

/-- What the server does: hand a message of a client on, or close the connection. -/
inductive Act where
  | msg (fd : Int) (m : Msg)
  | gone (fd : Int)
deriving Repr, DecidableEq

/-- What happens: `read` for a client returns some bytes (none at the end of the stream, or if the
buffer is full), `read` fails, or nothing arrives for a second. -/
inductive Op where
  | ready (fd : Int) (d : List Byte)
  | fail (fd : Int)
  | idle
deriving Repr, DecidableEq

/-- `src/server/buffer.c:163-175` once the index was advanced.  The comparison is between `uint32_t`;
the last branch there can not be reached. -/
def examine (s : State) (fd : Int) (n : Node) : C (State × List Act) :=
  if u32 n.index < u32 ((be4 (n.buf.take 4) : Int) - 1) then .ok (s, [])
  else do
    let (s, m) ← dispatcher s fd n.buf
    .ok (s, match m with | some m => [.msg fd m] | none => [])

/-- `buff_read`, `src/server/buffer.c:135-176`, and what `msg_receive` does with its result,
`src/server/message.c:319-328`, with `msg_del_fd` (`:250-268`).  `read` is told the room that is
left.  Its failure, -1, is not noticed, because `result` is a `size_t`: the index goes back by
one. -/
def step (s : State) : Op → C (State × List Act)
  | .idle => .ok (freeAll s, [])
  | .ready fd d => do
    let (i, s) ← slot s fd
    match s.nodes[i]? with
    | none => .ub "not a node"
    | some n =>
      if n.index < 0 then .ub "write outside block"
      else if n.index + d.length > 4096 then .ub "not an input"
      else if d = [] then .ok (free s fd, [.gone fd])
      else do
        let b ← wr n.buf n.index d
        let n := { n with index := n.index + d.length, buf := b }
        examine { s with nodes := s.nodes.set i n } fd n
  | .fail fd => do
    let (i, s) ← slot s fd
    match s.nodes[i]? with
    | none => .ub "not a node"
    | some n =>
      let n := { n with index := n.index - 1 }
      examine { s with nodes := s.nodes.set i n } fd n

/-- The main loop of the server. -/
def run (s : State) : List Op → C (State × List Act)
  | [] => .ok (s, [])
  | o :: os => do
    let (s, a) ← step s o
    let (s, as) ← run s os
    .ok (s, a ++ as)

end Dax.Buff
