import Verif.Model.LibGroup
import Verif.Model.Override
/-!
# Reading back an override in the client library: `src/lib/libmsg.c`

What is sent is in `encode` of `Wire`; here is what happens to the answer.
-/
set_option autoImplicit false
namespace Dax.LibOverride
open Dax.LibGroup

/-- `dax_tag_get_override`, `src/lib/libmsg.c:973-1004`, with `_message_recv`, `:115-162`: what the two memories of the caller hold afterwards, and the result.  The answer is put into the buffer that held the request, of which only the first 12 bytes were set; `junk` are the other bytes.  Neither the bit of the handle nor the size of the answer is used. -/
def getOverride (junk : List Byte) (h : Handle) (data mask : List Byte) (ans : Ans) : C (List Byte × List Byte × Int) :=
  match ans with
  | .failed e => .ok (data, mask, e)
  | .data d =>
    if d.length > MSG_DATA_SIZE then .ub "write outside block"
    else do
      let buff := d ++ ((le4 h.index ++ toLE 4 h.byte ++ toLE 4 h.size ++ junk).take MSG_DATA_SIZE).drop d.length
      let v ← rd buff 0 h.size
      let data ← wr data 0 v
      let m ← rd buff h.size h.size
      let mask ← wr mask 0 m
      .ok (data, mask, 0)

/-- How a reply of the server ends the request, `src/lib/libmsg.c:139-153`. -/
def ansOf : Reply → Option Ans
  | .resp d => some (.data d)
  | .err e => some (.failed e)
  | _ => none

end Dax.LibOverride
