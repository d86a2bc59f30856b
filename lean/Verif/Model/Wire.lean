import Verif.Model.LibCdt
import Verif.Model.LibEvent
/-!
# Requests as bytes: `src/lib/libmsg.c` and `src/server/message.c`

`decode` is what the handlers of the server take out of a message, `encode` what the functions of the
client library put into one.  The conversions of `src/lib/libconv.c` are all the identity
(`:31-127`) and are left out, and so are locks, the waiting for the answer and the answer.
-/
set_option autoImplicit false
namespace Dax.Wire
open LibEv (be4)

/-- `*(uint32_t *)&data[off]` inside the buffer. -/
def u4 (buf : List Byte) (off : Nat) : Nat := leNat ((buf.drop off).take 4)

/-- The C string at an offset of the message buffer; without a NUL it would be read past the end. -/
def strAt (buf : List Byte) (off : Nat) : C Name :=
  if (buf.drop off).contains 0 then .ok (cstr (buf.drop off)) else .ub "read outside block"

/-- How the handlers take their arguments out of `msg->data` (4088 bytes, `buf`), of which
`msg->size` were received; the rest is what was on the stack.  Sizes of data that come out
negative are counted as undefined. -/
def decode (cmd size : Nat) (buf : List Byte) : C Req :=
  if cmd = 0x01 then            -- msg_mod_register, src/server/message.c:378-421
    if size > 0 then do
      let n ← strAt buf 8
      .ok (.modReg (be4 ((buf.drop 4).take 4)) n)
    else .ok .modUnreg
  else if cmd = 0x02 then do    -- msg_tag_add, :427-452
    let n ← strAt buf 12
    .ok (.tagAdd (u4 buf 0) (u4 buf 4) (u4 buf 8) n)
  else if cmd = 0x03 then .ok (.tagDel (i32 (u4 buf 0)))       -- msg_tag_del, :456-482
  else if cmd = 0x04 then       -- msg_tag_get, :485-517
    if buf.head? = some 2#8 then .ok (.tagGetIdx (i32 (u4 buf 1)))
    else do
      let n ← strAt (buf.set 33 0) 1
      .ok (.tagGetName n)
  else if cmd = 0x05 then .ok .tagList                          -- msg_tag_list, :520-525
  else if cmd = 0x06 then                                       -- msg_tag_read, :531-552
    .ok (.tagRead (i32 (u4 buf 0)) (i32 (u4 buf 4)) (i32 (u4 buf 8)))
  else if cmd = 0x07 then do    -- msg_tag_write, :556-583
    let d ← rd buf 8 ((size : Int) - 8)
    .ok (.tagWrite (i32 (u4 buf 0)) (i32 (u4 buf 4)) d)
  else if cmd = 0x08 then       -- msg_tag_mask_write, :587-614
    if size < 8 then .ub "negative size"
    else do
      let n := (size - 8) / 2
      let d ← rd buf 8 n
      let m ← rd buf (8 + n) n
      .ok (.tagMWrite (i32 (u4 buf 0)) (i32 (u4 buf 4)) d m)
  else if cmd = 0x09 then       -- msg_evnt_add, :618-646
    .ok (.evAdd { index := i32 (u4 buf 0), byte := u4 buf 4, count := u4 buf 8, type := u4 buf 12,
                  size := u4 buf 20, bit := leNat ((buf.drop 24).take 1) } (i32 (u4 buf 16)) (buf.drop 25))
  else if cmd = 0x0A then .ok (.evDel (i32 (u4 buf 0)) (i32 (u4 buf 4)))     -- msg_evnt_del, :649-670
  else if cmd = 0x0B then .ok .evGet                                         -- msg_evnt_get, :673-676
  else if cmd = 0x0C then                                                    -- msg_evnt_opt, :679-701
    .ok (.evOpt (i32 (u4 buf 0)) (i32 (u4 buf 4)) (u4 buf 8))
  else if cmd = 0x0D then do    -- msg_cdt_create, :705-720
    let n ← strAt (buf.set 4087 0) 0
    .ok (.cdtCreate n)
  else if cmd = 0x0E then       -- msg_cdt_get, :724-741
    if buf.head? = some 2#8 then .ok (.cdtGetType (u4 buf 1))
    else .ok (.cdtGetName (cstr ((buf.drop 1).take 32)))
  else if cmd = 0x0F then .ok (.mapAdd (handle21 buf) (handle21 (buf.drop 21)))   -- msg_map_add, :772-800
  else if cmd = 0x10 then .ok (.mapDel (i32 (u4 buf 0)) (i32 (u4 buf 4)))    -- msg_map_del, :803-820
  else if cmd = 0x11 then .ok (.mapGet (i32 (u4 buf 0)) (i32 (u4 buf 4)))    -- msg_map_get, :822-855
  else if cmd = 0x12 then       -- msg_group_add, :858-876, group_add, src/server/groups.c:80-112
    .ok (.grpAdd ((List.range (leNat (buf.take 1))).map fun n => handle21 (buf.drop (2 + 21 * n))))
  else if cmd = 0x13 then .ok (.grpDel (u4 buf 0))              -- msg_group_del, :879-895
  else if cmd = 0x14 then .ok (.grpRead (u4 buf 0))             -- msg_group_read, :898-915
  else if cmd = 0x15 then .ok (.grpWrite (u4 buf 0) (buf.drop 4))   -- msg_group_write, :918-935
  else if cmd = 0x16 then .ok .grpMWrite                        -- msg_group_mask_write, :938-950
  else if cmd = 0x17 then       -- msg_atomic_op, :953-979
    .ok (.atomic { index := i32 (u4 buf 0), byte := u4 buf 4, count := u4 buf 8, type := u4 buf 12,
                   bit := leNat ((buf.drop 16).take 1), size := u32 ((size : Int) - 21) }
      (leNat ((buf.drop 17).take 2)) (buf.drop 21))
  else if cmd = 0x18 then       -- msg_add_override, :982-999
    if size < 12 then .ub "negative size"
    else do
      let n := (size - 12) / 2
      let d ← rd buf 12 n
      let m ← rd buf (12 + n) n
      .ok (.ovrAdd (i32 (u4 buf 0)) (i32 (u4 buf 4)) d m)
  else if cmd = 0x19 then do    -- msg_del_override, :1002-1016
    let m ← rd buf 8 ((size : Int) - 8)
    .ok (.ovrDel (i32 (u4 buf 0)) (i32 (u4 buf 4)) m)
  else if cmd = 0x1A then       -- msg_get_override, :1019-1038
    .ok (.ovrGet (i32 (u4 buf 0)) (i32 (u4 buf 4)) (i32 (u4 buf 8)))
  else if cmd = 0x1B then       -- msg_set_override, :1041-1057
    .ok (.ovrSet (i32 (u4 buf 0)) (leNat ((buf.drop 4).take 1) != 0))
  else .ub "not a command"

/-- A message from client `fd` that was received, `src/server/message.c:345-364`; `junk` is the stack behind it. -/
def serve (s : Server) (fd : Int) (cmd : Nat) (d junk : List Byte) : C (Server × Reply) := do
  let r ← decode cmd d.length (d ++ junk)
  handle s fd r

/-! ## The client -/

/-- The calls of the client library that make one request. -/
inductive Call where
  /-- `_mod_register`, called by `dax_connect` -/
  | register (name : Name)
  | tagAdd (type count attr : Nat) (name : Name)
  | tagDel (idx : Int)
  /-- `dax_tag_byname` of a tag that is not cached -/
  | byName (name : Name)
  /-- `dax_tag_byindex` of a tag that is not cached -/
  | byIndex (idx : Int)
  | read (idx : Int) (off size : Nat)
  | write (idx : Int) (off : Nat) (d : List Byte)
  | mask (idx : Int) (off : Nat) (d m : List Byte)
  | ovrAdd (h : Handle) (d : List Byte)
  | ovrDel (h : Handle)
  | ovrGet (h : Handle)
  | ovrSet (h : Handle)
  | ovrClr (h : Handle)
  | atomic (h : Handle) (d : Option (List Byte)) (op : Nat)
  | evAdd (h : Handle) (etype : Int) (d : Option (List Byte))
  | evDel (idx id : Int)
  | evOpt (idx id : Int) (opts : Nat)
  /-- `dax_cdt_create`, once the text was made (see `cdtText` in `Verif/Model/LibCdt.lean`) -/
  | cdtCreate (text : Name)
  | cdtGetType (t : Nat)
  | cdtGetName (name : Name)
  | mapAdd (src dst : Handle)
  | mapDel (idx id : Int)
  | mapGet (idx id : Int)
  | grpAdd (hs : List Handle) (options : Byte)
  | grpRead (i : Nat)
  /-- `dax_group_write`; `d` are the `id->size` bytes of data -/
  | grpWrite (i : Nat) (d : List Byte)
  | grpDel (i : Nat)
deriving Repr

/-- The loop that moves bits to their place in `newdata` and marks them in `mask`,
`src/lib/libmsg.c:856-863,924-928`, `src/lib/libdata.c:543-550,637-644`: `n` bits done, `k` to go. -/
def shiftLoop (data : List Byte) (bit : Nat) : Nat → Nat → List Byte × List Byte → C (List Byte × List Byte)
  | 0, _, p => .ok p
  | k + 1, n, (nd, mk) =>
    match data[n / 8]?, nd[(bit + n) / 8]?, mk[(bit + n) / 8]? with
    | some x, some y, some z =>
      let b : Byte := BitVec.ofNat 8 (2 ^ ((bit + n) % 8))
      shiftLoop data bit k (n + 1)
        (if x.getLsbD (n % 8) then nd.set ((bit + n) / 8) (y ||| b) else nd, mk.set ((bit + n) / 8) (z ||| b))
    | _, _, _ => .ub "bit outside block"

/-- Does the access need its bits shifted, `src/lib/libmsg.c:840,915`? -/
def shifted (h : Handle) : Bool := h.type == DAX_BOOL && (h.bit > 0 || h.count % 8 != 0)

/-- Size with the extra byte, `src/lib/libmsg.c:843-845,918-920`. -/
def shiftSize (h : Handle) : Nat := if h.bit > 0 ∧ h.count % 8 = 0 then h.size + 1 else h.size

/-- Data and mask of `dax_tag_add_override`, `src/lib/libmsg.c:840-871` (the loop of
`dax_tag_del_override` makes the same mask). -/
def shiftedBits (h : Handle) (d : List Byte) : C (List Byte × List Byte) :=
  if shifted h then
    shiftLoop d (h.bit % 8) h.count 0 (List.replicate (shiftSize h) 0, List.replicate (shiftSize h) 0)
  else do
    let d ← rd d 0 h.size
    .ok (d, List.replicate h.size 255)

/-- What `mtos_generic` and the size in `dax_event_add` make of the data, `src/lib/libmsg.c:1189-1194`,
`src/lib/libconv.c:133-182`: the bytes sent after the first 25.  The number of bytes is taken from the type code
even if it is none of the base types; then nothing is copied.  `BOOL` data is copied but not sent. -/
def eventData (junk : List Byte) (type : Nat) (d : List Byte) : C (List Byte) :=
  let n := typeBits type / 8
  if 25 + n > MSG_DATA_SIZE then .ub "read outside block"
  else if baseTypes.contains type then rd d 0 n
  else .ok ((junk.drop 25).take n)

/-- 21 bytes of a handle in `dax_map_add` and `dax_group_add`, `src/lib/libmsg.c:1480-1502,1658-1671`. -/
def handle21Of (h : Handle) : List Byte :=
  le4 h.index ++ toLE 4 h.byte ++ toLE 1 h.bit ++ toLE 4 h.count ++ toLE 4 h.size ++ toLE 4 h.type

/-- The request a call sends: an error found before anything is sent, or command and payload.
`junk` are the 4088 uninitialised bytes of the local buffer. -/
def encode (junk : List Byte) : Call → C (Except Int (Nat × List Byte))
  -- `_mod_register`, `src/lib/libmsg.c:233-257`; a longer name would be cut in the caller's memory
  | .register name =>
    if name.length + 1 > 4080 then .ub "not modelled"
    else .ok (.ok (0x01, [0, 0, 3, 232, 0, 0, 0, 1] ++ name ++ [0]))
  -- `dax_tag_add`, `:467-492`: the buffer has 41 bytes
  | .tagAdd type count attr name =>
    if count = 0 then .ok (.error ERR_ARG)
    else if name.length > TAGNAME_SIZE then .ok (.error ERR_2BIG)
    else if 12 + name.length + 1 > 41 then .ub "write outside block"
    else .ok (.ok (0x02, toLE 4 type ++ toLE 4 count ++ toLE 4 attr ++ name ++ [0]))
  -- `dax_tag_del`, `:536-544`
  | .tagDel idx => .ok (.ok (0x03, le4 idx))
  -- `dax_tag_byname`, `:567-587`
  | .byName name =>
    if name.length > TAGNAME_SIZE then .ok (.error ERR_2BIG)
    else if name = [] then .ok (.error ERR_NOTFOUND)
    else .ok (.ok (0x04, 1#8 :: name ++ [0]))
  -- `dax_tag_byindex`, `:626-636`
  | .byIndex idx => .ok (.ok (0x04, 2#8 :: le4 idx))
  -- `dax_read`, `:678-693`: two bytes more than needed
  | .read idx off size =>
    if size > MSG_DATA_SIZE then .ok (.error ERR_2BIG)
    else .ok (.ok (0x06, le4 idx ++ toLE 4 off ++ toLE 4 size ++ (junk.drop 12).take 2))
  -- `dax_write`, `:726-749`
  | .write idx off d =>
    if d.length + 8 > MSG_DATA_SIZE then .ok (.error ERR_2BIG)
    else .ok (.ok (0x07, le4 idx ++ toLE 4 off ++ d))
  -- `dax_mask`, `:784-805`
  | .mask idx off d m =>
    if d.length * 2 + 8 > MSG_DATA_SIZE then .ok (.error ERR_2BIG)
    else do
      let m ← rd m 0 d.length
      .ok (.ok (0x08, le4 idx ++ toLE 4 off ++ d ++ m))
  -- `dax_tag_add_override`, `:831-882`: nothing stops an access that does not fit the buffer
  | .ovrAdd h d => do
    let (nd, mk) ← shiftedBits h d
    if 12 + nd.length + mk.length > MSG_DATA_SIZE then .ub "write outside block"
    else .ok (.ok (0x18, le4 h.index ++ toLE 4 h.byte ++ (junk.drop 8).take 4 ++ nd ++ mk))
  -- `dax_tag_del_override`, `:906-945`
  | .ovrDel h => do
    let (_, mk) ← shiftedBits h (List.replicate (h.size + h.count) 0)
    if 8 + mk.length > MSG_DATA_SIZE then .ub "write outside block"
    else .ok (.ok (0x19, le4 h.index ++ toLE 4 h.byte ++ mk))
  -- `dax_tag_get_override`, `:973-984`
  | .ovrGet h => .ok (.ok (0x1A, le4 h.index ++ toLE 4 h.byte ++ toLE 4 h.size))
  -- `dax_tag_set_override`, `:1014-1023`, and `dax_tag_clr_override`, `:1050-1060`: five bytes
  | .ovrSet h => .ok (.ok (0x1B, le4 h.index ++ [255]))
  | .ovrClr h => .ok (.ok (0x1B, le4 h.index ++ [0]))
  -- `dax_atomic_op`, `:1092-1117`: without data what is in the buffer is sent
  | .atomic h d op =>
    if h.size + 21 > MSG_DATA_SIZE then .ok (.error ERR_2BIG)
    else if isCustom h.type then .ok (.error ERR_ILLEGAL)
    else do
      let d ← match d with
        | some d => rd d 0 h.size
        | none => .ok ((junk.drop 21).take h.size)
      .ok (.ok (0x17, le4 h.index ++ toLE 4 h.byte ++ toLE 4 h.count ++ toLE 4 h.type ++ toLE 1 h.bit ++ toLE 4 op ++ d))
  -- `dax_event_add`, `:1163-1197`
  | .evAdd h etype d => do
    let d ← match d with
      | some d => eventData junk h.type d
      | none => .ok []
    .ok (.ok (0x09, le4 h.index ++ toLE 4 h.byte ++ toLE 4 h.count ++ toLE 4 h.type ++ le4 etype ++ toLE 4 h.size ++
      toLE 1 h.bit ++ d))
  -- `dax_event_del`, `:1234-1249`
  | .evDel idx id => .ok (.ok (0x0A, le4 idx ++ le4 id))
  -- `dax_event_options`, `:1287-1304`
  | .evOpt idx id opts => .ok (.ok (0x0C, le4 idx ++ le4 id ++ toLE 4 opts))
  -- `dax_cdt_create`, `:1334-1378`
  | .cdtCreate text =>
    if text.length + 1 > MSG_DATA_SIZE then .ok (.error ERR_2BIG)
    else .ok (.ok (0x0D, text ++ [0]))
  -- `dax_cdt_get`, `:1420-1440`
  | .cdtGetType t => .ok (.ok (0x0E, 2#8 :: toLE 4 t))
  | .cdtGetName name =>
    if name.length + 2 > MSG_DATA_SIZE then .ub "write outside block"
    else .ok (.ok (0x0E, 1#8 :: name ++ [0]))
  -- `dax_map_add`, `:1471-1507`: `sizeof(tag_handle) * 2` = 48 bytes, six of them unused
  | .mapAdd src dst => .ok (.ok (0x0F, handle21Of src ++ handle21Of dst ++ (junk.drop 42).take 6))
  -- `dax_map_del`, `:1587-1600`, and `dax_map_get`, `:1537-1550`
  | .mapDel idx id => .ok (.ok (0x10, le4 idx ++ le4 id))
  | .mapGet idx id => .ok (.ok (0x11, le4 idx ++ le4 id))
  -- `dax_group_add`, `:1631-1674`
  | .grpAdd hs options =>
    if hs.length > 150 then .ok (.error ERR_ARG)
    else if (hs.map (·.size)).sum > 4084 then .ok (.error ERR_2BIG)
    else .ok (.ok (0x12, toLE 1 hs.length ++ [options] ++ hs.flatMap handle21Of))
  -- `dax_group_read`, `:1729-1738`
  | .grpRead i => .ok (.ok (0x14, toLE 4 i))
  -- `dax_group_write`, `:1767-1779`
  | .grpWrite i d =>
    if 4 + d.length > MSG_DATA_SIZE then .ub "write outside block"
    else .ok (.ok (0x15, toLE 4 i ++ d))
  -- `dax_group_del`, `:1799-1808`
  | .grpDel i => .ok (.ok (0x13, toLE 4 i))

end Dax.Wire
