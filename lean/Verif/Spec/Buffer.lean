import Verif.Model.Buffer
import Verif.Spec.LibRecv
/-!
# Specification: requests on a stream, and how the server should take them off it
-/
set_option autoImplicit false
namespace Dax.Buff
open LibEv (Msg)
open LibRecv (be32)

/-- A request as it is sent: size of everything, command, payload. -/
def request (m : Msg) : List Byte := be32 (m.data.length + 8) ++ be32 m.type ++ m.data

/-- What a client may send: a command that exists, a payload of at most 4088 bytes. -/
def Fits (m : Msg) : Prop := 1 ≤ m.type ∧ m.type ≤ 27 ∧ m.data.length ≤ 4088

/-- What concerns one client. -/
inductive Seen where
  | piece (d : List Byte)
  | fail
  | idle
deriving Repr, DecidableEq

/-- What happens, as far as it concerns the client on `fd`. -/
def view (fd : Int) : List Op → List Seen
  | [] => []
  | .ready f d :: os => if f = fd then .piece d :: view fd os else view fd os
  | .fail f :: os => if f = fd then .fail :: view fd os else view fd os
  | .idle :: os => .idle :: view fd os

/-- What the server did for the client on `fd`: messages, and `none` for closing the connection. -/
def actsOf (fd : Int) : List Act → List (Option Msg)
  | [] => []
  | .msg f m :: as => if f = fd then some m :: actsOf fd as else actsOf fd as
  | .gone f :: as => if f = fd then none :: actsOf fd as else actsOf fd as

/-- `Clean part vs out`: a client of whose current request the bytes `part` have arrived sends
the requests in `out`, and closes the connection where `out` has `none`; they arrive as in `vs`.
No piece contains bytes of two requests; the first piece of a request has four bytes at
least; no piece ends one byte before the end of a request; there is no second of silence
while a request is incomplete. -/
inductive Clean : List Byte → List Seen → List (Option Msg) → Prop where
  | done {part : List Byte} : Clean part [] []
  | more {part d : List Byte} {m : Msg} {vs : List Seen} {out : List (Option Msg)} (hf : Fits m) (hd : d ≠ [])
      (hp : part ++ d <+: request m) (h4 : 4 ≤ (part ++ d).length)
      (h1 : (part ++ d).length + 1 < (request m).length) (h : Clean (part ++ d) vs out) :
      Clean part (.piece d :: vs) out
  | last {part d : List Byte} {m : Msg} {vs : List Seen} {out : List (Option Msg)} (hf : Fits m) (hd : d ≠ [])
      (hp : part ++ d = request m) (h : Clean [] vs out) : Clean part (.piece d :: vs) (some m :: out)
  | close {part : List Byte} {vs : List Seen} {out : List (Option Msg)} (h : Clean [] vs out) :
      Clean part (.piece [] :: vs) (none :: out)
  | idle {vs : List Seen} {out : List (Option Msg)} (h : Clean [] vs out) : Clean [] (.idle :: vs) out

end Dax.Buff
