import Verif.Model.LibEvent
/-!
# How the client library reads messages: `src/lib/libmsg.c:63-107,297-340,355-392`

The connection is a stream of bytes together with what the network does to it: where it is cut
(a call of `read` never returns bytes from both sides of a cut) and where a call of `read` runs into
its timeout.  Not modelled: errors of `read` other than the timeout, registration, the disconnect
callback.  What happens to a message once it was read is in `Verif/Model/LibEvent.lean`.
-/
namespace Dax.LibRecv
open LibEv (Msg be4)

/-- `src/opendax.h:106-137`. -/
def ERR_TIMEOUT : Int := -14
/-- `src/opendax.h:106-137`. -/
def ERR_DISCONNECTED : Int := -31

/-- The connection: everything the server sends, the cuts (`cut p`: between byte `p-1` and byte `p`),
the bytes for which a `read` waits in vain (once per entry), and how much was read. -/
structure Net where
  stream : List Byte
  cut : Nat → Bool
  stalls : List Nat
  pos : Nat

/-- How many of `n` bytes from position `p` come in one piece. -/
def upTo (cut : Nat → Bool) : Nat → Nat → Nat
  | 0, _ => 0
  | n + 1, p => if cut (p + 1) then 1 else 1 + upTo cut n (p + 1)

/-- `read(fd, _, n)`: `none` is the timeout, no bytes the end of the stream. -/
def read (w : Net) (n : Nat) : Option (List Byte) × Net :=
  if w.pos ∈ w.stalls then (none, { w with stalls := w.stalls.erase w.pos })
  else
    let d := (w.stream.drop w.pos).take (upTo w.cut n w.pos)
    (some d, { w with pos := w.pos + d.length })

/-- The loop that reads the header, `src/lib/libmsg.c:69-84`: every round asks for `MSG_HDR_SIZE`
bytes, however many it has.  The first argument bounds the rounds. -/
def hdrLoop : Nat → Net → List Byte → Nat → C (Except Int (List Byte) × Net)
  | 0, _, _, _ => .ub "loop without progress"
  | f + 1, w, buff, index =>
    if index < 8 then
      match read w 8 with
      | (none, w) => .ok (.error ERR_TIMEOUT, w)
      | (some d, w) =>
        if d.length = 0 then .ok (.error ERR_DISCONNECTED, w)
        else do
          let buff ← wr buff index d
          hdrLoop f w buff (index + d.length)
    else .ok (.ok buff, w)

/-- The loop that reads the rest of the message, `src/lib/libmsg.c:90-103`. -/
def bodyLoop : Nat → Net → List Byte → Nat → Nat → C (Except Int (List Byte) × Net)
  | 0, _, _, _, _ => .ub "loop without progress"
  | f + 1, w, buff, size, index =>
    if index < size then
      match read w (size - index) with
      | (none, w) => .ok (.error ERR_TIMEOUT, w)
      | (some d, w) =>
        if d.length = 0 then .ok (.error ERR_DISCONNECTED, w)
        else do
          let buff ← wr buff index d
          bodyLoop f w buff size (index + d.length)
    else .ok (.ok buff, w)

/-- `_message_get`, `src/lib/libmsg.c:64-107`; `buff` is the uninitialised array of `DAX_MSGMAX` bytes,
`msg->data` has `MSG_DATA_SIZE` (4088) bytes. -/
def messageGet (buff : List Byte) (w : Net) : C (Except Int Msg × Net) := do
  match ← hdrLoop 9 w buff 0 with
  | (.error e, w) => .ok (.error e, w)
  | (.ok buff, w) => do
    let size := be4 (buff.take 4)
    let type := be4 ((buff.drop 4).take 4)
    match ← bodyLoop (size + 1) w buff size 0 with
    | (.error e, w) => .ok (.error e, w)
    | (.ok buff, w) =>
      if size > 4088 then .ub "write outside block"
      else do
        let d ← rd buff 0 size
        .ok (.ok { type := type, data := d }, w)

/-- `k` rounds of the loop of `_connection_thread`, `src/lib/libmsg.c:373-383`: the messages obtained.
`junk` is what the array of each round contains at first. -/
def connLoop (junk : Nat → List Byte) : Nat → Net → C (List Msg × Net)
  | 0, w => .ok ([], w)
  | k + 1, w => do
    match ← messageGet (junk k) w with
    | (.error e, w) => if e = ERR_DISCONNECTED then .ok ([], w) else connLoop junk k w
    | (.ok m, w) => do
      let (ms, w) ← connLoop junk k w
      .ok (m :: ms, w)

end Dax.LibRecv
