import Verif.Model.Wire
/-!
# Groups in the client library: `src/lib/libmsg.c`

What `encode` of `Wire` leaves out: the memory of the caller.  The client has the byte order of the server, so that `group_read_format` and `group_write_format` change nothing.
-/
set_option autoImplicit false
namespace Dax.LibGroup

/-- `tag_group_id`, `src/lib/libdax.h:81-87`: the number of the group, its handles and its size. -/
structure Id where
  index : Nat
  handles : List Handle
  size : Nat
deriving Repr, DecidableEq

/-- How a request ends: sending fails or the server refuses, with the code; or it answers with data. -/
inductive Ans where
  | failed (e : Int)
  | data (d : List Byte)
deriving Repr, DecidableEq

/-- `dax_group_add`, `src/lib/libmsg.c:1630-1704`, with `_message_send`, `:38-60`: `count` is the argument, `hs` the handles it points to.  What is sent is in `Wire.encode`.  The length of a message with a negative count is near 2^64.  A count larger than the number of handles is undefined here even if the sizes before are too large already. -/
def groupAdd (junk : List Byte) (hs : List Handle) (count : Int) (options : Byte) (ans : Ans) : C (Except Int Id) :=
  if count > 150 then .ok (.error ERR_ARG)
  else if count < 0 ∨ count > hs.length then .ub "read outside block"
  else do
    let m ← Wire.encode junk (.grpAdd (hs.take count.toNat) options)
    match m with
    | .error e => .ok (.error e)
    | .ok _ =>
      match ans with
      | .failed e => .ok (.error e)
      | .data d => .ok (.ok ⟨leNat (d.take 4), hs.take count.toNat, ((hs.take count.toNat).map (·.size)).sum⟩)

/-- `dax_group_read`, `src/lib/libmsg.c:1728-1756`, with `_message_recv`, `:115-162`: the memory of the caller afterwards and the result.  The number of the group is put into the memory of the caller to be sent. -/
def groupRead (id : Id) (mem : List Byte) (size : Nat) (ans : Ans) : C (List Byte × Int) :=
  if size < id.size then .ok (mem, ERR_ARG)
  else if mem.length < 4 then .ub "write outside block"
  else
    match ans with
    | .failed e => .ok (toLE 4 id.index ++ mem.drop 4, e)
    | .data d =>
      if d.length > mem.length then .ub "write outside block"
      else .ok (d ++ (toLE 4 id.index ++ mem.drop 4).drop d.length, 0)

/-- `dax_group_write`, `src/lib/libmsg.c:1766-1789`: what is sent. -/
def groupWrite (junk : List Byte) (id : Id) (mem : List Byte) : C (Except Int (Nat × List Byte)) :=
  if mem.length < id.size then .ub "read outside block" else Wire.encode junk (.grpWrite id.index (mem.take id.size))

end Dax.LibGroup
