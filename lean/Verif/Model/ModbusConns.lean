import Verif.Model.Modbus
/-!
# The connections of the Modbus TCP server: `src/modules/modbus/mbserver.c`

What is done with the bytes of a connection (`_mb_read` behind `read`, `tcpServe` in `Modbus`) is a parameter.
-/
set_option autoImplicit false
namespace Dax.MbConns
open Dax.Modbus (MB_ERR_OVERFLOW)

/-- `src/modules/modbus/modbus.h:89`. -/
def MB_ERR_RECV_FAIL : Int := -12
/-- `src/modules/modbus/modbus.h:90`. -/
def MB_ERR_NO_SOCKET : Int := -13

/-- The memory of a `client_buffer` and the number of its bytes in use, `src/modules/modbus/modbus.h:158-163`. -/
structure Buff where
  mem : List Byte
  count : Nat
deriving Repr, DecidableEq

/-- What is done with bytes read from a connection: the new state of everything else, the new buffer, what is sent and the return value. -/
abbrev Serve (σ : Type) := σ → Buff → List Byte → C (σ × Buff × Option (List Byte) × Int)

/-- The fields of `mb_port` for connections, `src/modules/modbus/modbus.h:253-255`: the members of `fdset`, `maxfd`, the linked list at `buff_head`; `fd` is the listening socket, and `down` says that `server_loop` has returned. -/
structure Port where
  listen : Nat
  fds : List Nat
  maxfd : Nat
  bufs : List (Nat × Buff)
  down : Bool
deriving Repr, DecidableEq

/-- What happens at the sockets.  `accept` has the new descriptor and what `malloc` left in the new buffer, `fail` is an error of `read`, `idle` a second without anything. -/
inductive Ev where
  | accept (fd : Nat) (mem : List Byte)
  | data (fd : Nat) (d : List Byte)
  | eof (fd : Nat)
  | fail (fd : Nat)
  | idle
deriving Repr, DecidableEq

/-- What is sent on a connection. -/
structure Sent where
  fd : Nat
  bytes : List Byte
deriving Repr, DecidableEq

/-- `_add_fd`, `src/modules/modbus/mbserver.c:30-35`; a set has 1024 places. -/
def addFd (p : Port) (fd : Nat) : C Port :=
  if fd ≥ 1024 then .ub "write outside fd_set"
  else .ok { p with fds := fd :: p.fds, maxfd := if fd > p.maxfd then fd else p.maxfd }

/-- `_del_fd`, `src/modules/modbus/mbserver.c:37-53`. -/
def delFd (p : Port) (fd : Nat) : Port :=
  let fds := p.fds.filter (· ≠ fd)
  if fd = p.maxfd then { p with fds := fds, maxfd := (List.range (p.maxfd + 1)).foldl (fun t n => if n ∈ fds then n else t) 0 }
  else { p with fds := fds }

/-- `_add_connection`, `src/modules/modbus/mbserver.c:55-76`. -/
def addConnection (p : Port) (fd : Nat) (mem : List Byte) : C Port := addFd { p with bufs := (fd, ⟨mem, 0⟩) :: p.bufs } fd

/-- `_clear_buffers`, `src/modules/modbus/mbserver.c:80-92`. -/
def clearBuffers (p : Port) : Port := { p with bufs := p.bufs.map (fun b => (b.1, { b.2 with count := 0 })) }

/-- `_get_buff_ptr`, `src/modules/modbus/mbserver.c:103-116`. -/
def getBuff : List (Nat × Buff) → Nat → Option Buff
  | [], _ => none
  | (f, b) :: l, fd => if f = fd then some b else getBuff l fd

/-- The buffer that `_get_buff_ptr` finds is changed. -/
def setBuff : List (Nat × Buff) → Nat → Buff → List (Nat × Buff)
  | [], _, _ => []
  | (f, b) :: l, fd, b' => if f = fd then (f, b') :: l else (f, b) :: setBuff l fd b'

/-- Whether `select` and the loop of `_receive` look at a descriptor, `src/modules/modbus/mbserver.c:224,238-239`. -/
def watched (p : Port) (fd : Nat) : Bool := decide (fd ∈ p.fds) && decide (fd ≤ p.maxfd)

/-- The rest of `_receive` and `server_loop` for a return value of `_mb_read`, `src/modules/modbus/mbserver.c:250-257,276-285`.  After `server_loop` has returned an error, `mb_run_port` finds its own `result` still not 0 and the port open, so that it waits at the barrier each time round (`src/modules/modbus/modbus.c:49-56`) and serves nothing any more. -/
def after (p : Port) (fd : Nat) (r : Int) : Port :=
  if r = MB_ERR_NO_SOCKET then delFd p fd
  else if r < 0 ∧ r ≠ MB_ERR_OVERFLOW then { p with down := true }
  else p

/-- One event in `_receive`, `src/modules/modbus/mbserver.c:210-262`; none if it is not seen.  The system gives a new connection a descriptor that is not in use.  Simplified: the descriptors that are ready at the same time come one by one; those that an error keeps `_receive` from are still ready the next time. -/
def step {σ : Type} (h : Serve σ) (p : Port) (s : σ) : Ev → Option (C (Port × σ × List Sent))
  | .accept fd mem =>
    if p.down = false ∧ watched p p.listen ∧ fd ∉ p.fds then
      some (do
        let p ← addConnection p fd mem
        .ok (p, s, []))
    else none
  | .data fd d =>
    if p.down = false ∧ watched p fd ∧ fd ≠ p.listen then
      match getBuff p.bufs fd with
      | none => some (.ub "assert")
      | some b => some (do
        let (s, b, out, r) ← h s b d
        .ok (after { p with bufs := setBuff p.bufs fd b } fd r, s, out.toList.map (Sent.mk fd)))
    else none
  | .eof fd =>
    if p.down = false ∧ watched p fd ∧ fd ≠ p.listen then some (.ok (after p fd MB_ERR_NO_SOCKET, s, []))
    else none
  | .fail fd =>
    if p.down = false ∧ watched p fd ∧ fd ≠ p.listen then some (.ok (after p fd MB_ERR_RECV_FAIL, s, []))
    else none
  | .idle => if p.down = false then some (.ok (clearBuffers p, s, [])) else none

/-- A history of events. -/
def run {σ : Type} (h : Serve σ) (p : Port) (s : σ) : List Ev → Option (C (Port × σ × List Sent))
  | [] => some (.ok (p, s, []))
  | e :: es =>
    match step h p s e with
    | none => none
    | some (.ub w) => some (.ub w)
    | some (.ok (p, s, l)) =>
      match run h p s es with
      | none => none
      | some (.ub w) => some (.ub w)
      | some (.ok (p, s, l')) => some (.ok (p, s, l ++ l'))

/-- `_server_listen` that succeeds, `src/modules/modbus/mbserver.c:169-206`, on a port as `mb_new_port` makes it, `src/modules/modbus/mbports.c:49-50`. -/
def listening (fd : Nat) : C Port := addFd { listen := fd, fds := [], maxfd := 0, bufs := [], down := false } fd

end Dax.MbConns
