import Verif.Model.LibLua
import Verif.Model.ScriptQueue
/-!
# The module for programmable controllers: `src/modules/plctag/plctag.c`, `plcthread.c`

The library `libplctag` keeps a copy of the memory of a tag of the controller, here a list of bytes.  It is in the byte order of this machine.  Reads and writes outside of it fail: a value that tells the error is returned, nothing is written.
-/
set_option autoImplicit false
namespace Dax.Plc

/-- What is used of a `struct tagdef`, `src/modules/plctag/plctag.h:31-43`: `h.type`, `h.count`, `h.size`, `elem_size`, `byte_map`. -/
structure Conf where
  type : Nat
  count : Nat
  size : Nat
  elem : Int
  map : Option (List Nat) := none
deriving Repr, DecidableEq

/-- What the library returns for a read outside, by size; how a float becomes a double; what uninitialised memory contains. -/
structure Lib where
  bad : Nat → List Byte
  widen : List Byte → List Byte
  junk : Nat → List Byte

/-- The size of the elements of the types that are copied one by one with the same size: the cases of `_read_tag` and `_event_callback`. -/
def width (t : Nat) : Option Nat :=
  if t = DAX_BYTE ∨ t = DAX_SINT ∨ t = DAX_CHAR then some 1
  else if t = DAX_WORD ∨ t = DAX_UINT ∨ t = DAX_INT then some 2
  else if t = DAX_DWORD ∨ t = DAX_UDINT ∨ t = DAX_DINT ∨ t = DAX_REAL then some 4
  else if t = DAX_LWORD ∨ t = DAX_ULINT ∨ t = DAX_LINT ∨ t = DAX_TIME then some 8
  else none

/-- Bytes in memory of this program. -/
def poke (b : List Byte) (off : Nat) (v : List Byte) : C (List Byte) :=
  if off + v.length ≤ b.length then .ok (b.take off ++ v ++ b.drop (off + v.length)) else .ub "write outside the buffer"

/-- Bytes of memory of this program. -/
def peek (b : List Byte) (off n : Nat) : C (List Byte) :=
  if off + n ≤ b.length then .ok ((b.drop off).take n) else .ub "read outside the buffer"

/-- `plc_tag_get_uint8` and the like. -/
def Lib.get (L : Lib) (mem : List Byte) (off n : Nat) : List Byte := if off + n ≤ mem.length then (mem.drop off).take n else L.bad n

/-- `plc_tag_set_uint8` and the like, `plc_tag_set_raw_bytes`. -/
def plcSet (mem : List Byte) (off : Nat) (v : List Byte) : List Byte := if off + v.length ≤ mem.length then mem.take off ++ v ++ mem.drop (off + v.length) else mem

/-- `for(offset = 0; offset < n; offset++)`. -/
def times {β : Type} (f : Nat → β → C β) : Nat → β → C β
  | 0, x => .ok x
  | n + 1, x => do
    let x ← times f n x
    f n x

/-- Bit `i` of a list of bytes. -/
def plcBit (l : List Byte) (i : Nat) : Option Bool := l[i / 8]?.map fun b => b.getLsbD (i % 8)

/-- A bit in memory of this program, `src/modules/plctag/plctag.c:75,79`. -/
def pokeBit (l : List Byte) (i : Nat) (v : Bool) : C (List Byte) :=
  match l[i / 8]? with
  | none => .ub "write outside the buffer"
  | some b => .ok (l.set (i / 8) (Lua.putBit b (i % 8) v))

/-- `plc_tag_set_bit`. -/
def plcSetBit (l : List Byte) (i : Nat) (v : Bool) : List Byte :=
  match l[i / 8]? with
  | none => l
  | some b => l.set (i / 8) (Lua.putBit b (i % 8) v)

/-- `_read_tag`, `src/modules/plctag/plctag.c:63-165`: the buffer afterwards.  `plc_tag_get_raw_bytes` writes nothing if it is outside of the memory of the tag. -/
def readTag (L : Lib) (g : Conf) (mem buff : List Byte) : C (List Byte) :=
  if g.elem ≤ 0 then .ub "array of no or negative size" else
  let es := g.elem.toNat
  if g.type = DAX_BOOL then
    times (fun i b => match plcBit mem i with | none => .ok b | some v => pokeBit b i v) g.count buff
  else match width g.type with
  | some w => times (fun i b => poke b (i * w) (L.get mem (i * es) w)) g.count buff
  | none =>
    if g.type = DAX_LREAL then times (fun i b => poke b (i * 8) (L.widen (L.get mem (i * es) 4))) g.count buff
    else match g.map with
      | some m => times (fun i b => do
          let raw := if i * es + es ≤ mem.length then (mem.drop (i * es)).take es else L.junk es
          times (fun n b => match m[n]? with
            | none => .ub "read outside the map"
            | some k => do
              let v ← peek raw k 1
              poke b (i * es + n) v) es b) g.count buff
      | none => times (fun i b => if i * es + es ≤ mem.length then poke b (i * g.size / g.count) ((mem.drop (i * es)).take es) else .ok b) g.count buff

/-- `_event_callback`, `src/modules/plctag/plctag.c:240-341`, after `buff` has got the data of the event: the memory of the tag of the controller afterwards. -/
def writeTag (L : Lib) (g : Conf) (buff mem : List Byte) : C (List Byte) :=
  if g.elem ≤ 0 then .ub "array of no or negative size" else
  let es := g.elem.toNat
  if g.type = DAX_BOOL then
    times (fun i p => match plcBit buff i with | none => .ub "read outside the buffer" | some v => .ok (plcSetBit p i v)) g.count mem
  else match width g.type with
  | some w => times (fun i p => do
      let v ← peek buff (i * w) w
      .ok (plcSet p (i * es) v)) g.count mem
  | none =>
    if g.type = DAX_LREAL then times (fun i p => do
      let v ← peek buff (i * 8) 8
      .ok (plcSet p (i * es) v)) g.count mem
    else match g.map with
      | some m => do
        let (mem, _) ← times (fun i (p : List Byte × List Byte) => do
          let raw ← times (fun n r => match m[n]? with
            | none => .ub "read outside the map"
            | some k => do
              let v ← peek buff (i * es + n) 1
              poke r k v) es p.2
          .ok (plcSet p.1 (i * es) raw, raw)) g.count (mem, L.junk es)
        .ok mem
      | none => times (fun i p => do
          let v ← peek buff (i * g.size / g.count) es
          .ok (plcSet p (i * es) v)) g.count mem

/-! ## The queue of tags that were read -/

/-- The queue, `src/modules/plctag/plcthread.c:24-35`, and whether its lock can be had. -/
structure Lane (α : Type) where
  q : ScriptQ.Queue α
  locked : Bool := false

/-- `tag_queue_push`, `src/modules/plctag/plcthread.c:42-59`: like `_q_push` of the module for Lua scripts, but the lock is taken here, and kept if the queue is full.  No result if the lock cannot be had: the thread waits for ever. -/
def Lane.push {α : Type} (l : Lane α) (x : α) : C (Option (Lane α × Bool)) :=
  if l.locked then .ok none
  else do
    let (q, b) ← ScriptQ.push l.q x
    .ok (some ({ q := q, locked := !b }, b))

/-- One turn of the inner loop of the thread that writes the tags to the server, `src/modules/plctag/plcthread.c:86-100`: the tag that it takes, if there is one.  No result if the lock cannot be had. -/
def Lane.take {α : Type} (l : Lane α) : C (Option (Lane α × Option α)) :=
  if l.locked then .ok none
  else do
    let (q, x) ← ScriptQ.pop l.q
    .ok (some ({ l with q := q }, x))

/-- What the threads do with the queue. -/
inductive LaneOp (α : Type) where
  | push (x : α)
  | take
deriving Repr, DecidableEq

/-- One operation and what is seen of it: nothing if the lock cannot be had. -/
def Lane.step {α : Type} (l : Lane α) : LaneOp α → C (Lane α × List (ScriptQ.Seen α))
  | .push x => do
    match ← l.push x with
    | none => .ok (l, [])
    | some (l, b) => .ok (l, [if b then .accepted x else .refused x])
  | .take => do
    match ← l.take with
    | none => .ok (l, [])
    | some (l, none) => .ok (l, [])
    | some (l, some x) => .ok (l, [.ran x])

/-- Several operations. -/
def Lane.run {α : Type} (l : Lane α) : List (LaneOp α) → C (Lane α × List (ScriptQ.Seen α))
  | [] => .ok (l, [])
  | o :: os => do
    let (l, a) ← l.step o
    let (l, b) ← l.run os
    .ok (l, a ++ b)

end Dax.Plc
