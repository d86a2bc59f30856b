import Verif.Model.Wire
/-!
# Reading and writing tags through handles: `src/lib/libdata.c`

The requests go to a server state over connection `fd`, as in `Verif/Model/LibCdt.lean`; that the
raw calls arrive as these requests is C46.  The functions return, beside their result, the requests
they made with the answers.  Locks and the tag cache (C48) are not modelled.
-/
set_option autoImplicit false
namespace Dax.LibData
open Wire (shifted shiftSize shiftLoop)

/-- Requests made, with the answers. -/
abbrev Log := List (Req × Reply)

/-- How a call ends: with a result code, or not at all. -/
inductive Outcome where
  | done (code : Int)
  | endless
deriving Repr, DecidableEq

/-- A request and its answer, `src/lib/libmsg.c:35-60,115-162`: result code and data. -/
def transact (s : Server) (fd : Int) (q : Req) : C (Server × Log × Int × List Byte) := do
  let (s, r) ← handle s fd q
  match r with
  | .resp d => .ok (s, [(q, r)], 0, d)
  | .err e => .ok (s, [(q, r)], e, [])
  | .none => .ok (s, [(q, r)], ERR_TIMEOUT, [])

/-- `dax_read`, `src/lib/libmsg.c:677-712`; the offset is a `uint32_t` here and an `int` in the server. -/
def daxRead (s : Server) (fd idx : Int) (off size : Nat) : C (Server × Log × Int × List Byte) :=
  if size > MSG_DATA_SIZE then .ok (s, [], ERR_2BIG, [])
  else transact s fd (.tagRead idx (i32 off) size)

/-- `dax_write`, `src/lib/libmsg.c:725-764`. -/
def daxWrite (s : Server) (fd idx : Int) (off : Nat) (d : List Byte) : C (Server × Log × Int × List Byte) :=
  if d.length + 8 > MSG_DATA_SIZE then .ok (s, [], ERR_2BIG, [])
  else transact s fd (.tagWrite idx (i32 off) d)

/-- `dax_mask`, `src/lib/libmsg.c:783-820`. -/
def daxMask (s : Server) (fd idx : Int) (off : Nat) (d m : List Byte) : C (Server × Log × Int × List Byte) :=
  if d.length * 2 + 8 > MSG_DATA_SIZE then .ok (s, [], ERR_2BIG, [])
  else transact s fd (.tagMWrite idx (i32 off) d m)

/-- The loop that breaks up large transfers, `src/lib/libdata.c:370-377` (and `:557-564,585-592,651-658,
679-686`): `send s n k` transfers `k` bytes from position `n` on; `tsize` bytes are left.  A
step of no bytes that is not refused is repeated for ever.  `fuel` bounds the number of steps
and is chosen so that it does not run out. -/
def chunkLoop (send : Server → Nat → Nat → C (Server × Log × Int × List Byte)) (lim : Nat) (ts : Int) :
    Nat → Server → Int → Nat → C (Server × Log × Outcome × List Byte)
  | 0, _, _, _ => .ub "fuel"
  | fuel + 1, s, tsize, n =>
    if tsize ≤ 0 then .ok (s, [], .done 0, [])
    else if ts = 0 then .ub "division by zero"
    else do
      let r0 : Int := if tsize < lim then tsize else lim
      let rsize := r0 - r0.tmod ts
      let (s, l, e, d) ← send s n rsize.toNat
      if e ≠ 0 then .ok (s, l, .done e, d)
      else if rsize = 0 then .ok (s, l, .endless, d)
      else do
        let (s, l', o, d') ← chunkLoop send lim ts fuel s (tsize - rsize) (n + rsize.toNat)
        .ok (s, l ++ l', o, d ++ d')

/-- Bytes `n` to `n + k` of a block. -/
def part (d : List Byte) (n k : Nat) : C (List Byte) := rd d n k

/-- A transfer of `size` bytes that is broken up if it has more than `lim`, `src/lib/libdata.c:360-382`
(and `:552-567,580-595,646-661,674-689`).  A type that is larger than `tlim` is refused. -/
def transfer (send : Server → Nat → Nat → C (Server × Log × Int × List Byte)) (lim tlim : Nat) (s : Server) (fd : Int)
    (c : TypeCache) (type : Nat) (hsize size : Nat) : C (Server × TypeCache × Log × Outcome × List Byte) :=
  if hsize > lim then do
    let (c, ts) ← ctypeSize s fd c type
    if ts > tlim then .ok (s, c, [], .done ERR_2BIG, [])
    else do
      let (s, l, o, d) ← chunkLoop send lim ts (size + 1) s (i32 size) 0
      .ok (s, c, l, o, d)
  else do
    let (s, l, e, d) ← send s 0 size
    .ok (s, c, l, .done e, d)

/-- Loop that moves the bits read to the beginning, `src/lib/libdata.c:390-399`: `n` bits done, `k` to go. -/
def alignLoop (data : List Byte) (bit : Nat) : Nat → Nat → List Byte → C (List Byte)
  | 0, _, nd => .ok nd
  | k + 1, n, nd =>
    match data[(bit + n) / 8]? with
    | none => .ub "bit outside block"
    | some x =>
      if x.getLsbD ((bit + n) % 8) then
        match nd[n / 8]? with
        | none => .ub "bit outside block"
        | some y => alignLoop data bit k (n + 1) (nd.set (n / 8) (y ||| BitVec.ofNat 8 (2 ^ (n % 8))))
      else alignLoop data bit k (n + 1) nd

/-- `get_cdt_pointer`, `src/lib/libcdt.c:157-180`; `none` is NULL. -/
def cdtPointer (s : Server) (fd : Int) (c : TypeCache) (t : Nat) : C (TypeCache × Option (List Member)) :=
  if isCustom t then
    match c[cdtToIndex t]? with
    | some ⟨some _, ms⟩ => .ok (c, some ms)
    | _ => do
      let (c, r) ← cdtGet s fd c (.cdtGetType t)
      if r = 0 then
        match c[cdtToIndex t]? with
        | some e => .ok (c, some e.members)
        | none => .ub "datatype array index"
      else .ok (c, none)
  else .ok (c, none)

/-- Members in `_read_format` and `_write_format`, `src/lib/libdata.c:269-279,434-444`. -/
def formatMembers (s : Server) (fd : Int) (sub : TypeCache → Nat → Nat → Nat → C (TypeCache × Int)) :
    List Member → TypeCache → Nat → C (TypeCache × Int)
  | [], c, _ => .ok (c, 0)
  | m :: ms, c, pos => do
    let (c, r) ← sub c m.type m.count pos
    if r ≠ 0 then .ok (c, r)
    else if isCustom m.type then do
      let (c, sz) ← ctypeSize s fd c m.type
      formatMembers s fd sub ms c (pos + (sz * m.count).toNat)
    else formatMembers s fd sub ms c (pos + typeBits m.type * m.count / 8)

/-- `_read_format` and `_write_format` (`dbl`), `src/lib/libdata.c:250-338,415-502`: the conversions do
nothing, but they touch the data (`len` bytes), and fail for unknown types.  `_write_format` gives its
members the offset twice. -/
def formatF (s : Server) (fd : Int) (dbl : Bool) (len : Nat) : Nat → TypeCache → Nat → Nat → Nat → Nat → C (TypeCache × Int)
  | 0, _, _, _, _, _ => .ub "unbounded recursion"
  | fuel + 1, c, type, count, base, offset =>
    let type := stripQueue type
    if isCustom type then do
      let (c, p) ← cdtPointer s fd c type
      match p with
      | none => .ok (c, ERR_NOTFOUND)
      | some ms =>
        formatMembers s fd (fun c t n pos => formatF s fd dbl len fuel c t n (if dbl then base + offset else base) pos)
          ms c offset
    else if [DAX_BOOL, DAX_BYTE, DAX_SINT, DAX_CHAR].contains type then .ok (c, 0)
    else if baseTypes.contains type then
      if base + offset + (if type = DAX_TIME then 4 else typeBits type / 8) * count ≤ len then .ok (c, 0)
      else .ub "access outside block"
    else .ok (c, ERR_ARG)

/-- With fuel for any acyclic table. -/
def format (s : Server) (fd : Int) (dbl : Bool) (len : Nat) (c : TypeCache) (type count : Nat) : C (TypeCache × Int) :=
  formatF s fd dbl len (s.cdts.length + 1) c type count 0 0

/-- `dax_tag_read`, `src/lib/libdata.c:353-410`; the data is what is in the first `handle.size` bytes of
the caller's buffer at the end. -/
def daxTagRead (s : Server) (fd : Int) (c : TypeCache) (h : Handle) :
    C (Server × TypeCache × Log × Outcome × List Byte) := do
  let (s, c, l, o, d) ← transfer (fun s n k => daxRead s fd h.index ((h.byte + n) % 4294967296) k)
    MSG_DATA_SIZE MSG_DATA_SIZE s fd c h.type h.size h.size
  if o ≠ .done 0 then .ok (s, c, l, o, d)
  else if h.type = DAX_BOOL then do
    let nd ← alignLoop d h.bit h.count 0 (List.replicate h.size 0)
    .ok (s, c, l, .done 0, nd)
  else do
    let (c, r) ← format s fd false d.length c h.type h.count
    .ok (s, c, l, .done r, d)

/-- `dax_tag_write`, `src/lib/libdata.c:519-598`. -/
def daxTagWrite (s : Server) (fd : Int) (c : TypeCache) (h : Handle) (data : List Byte) :
    C (Server × TypeCache × Log × Outcome × List Byte) :=
  if shifted h then do
    let (nd, mk) ← shiftLoop data (h.bit % 8) h.count 0
      (List.replicate (shiftSize h) 0, List.replicate (shiftSize h) 0)
    transfer (fun s n k => do
        let d ← part nd n k
        let m ← part mk n k
        daxMask s fd h.index ((h.byte + n) % 4294967296) d m)
      2040 2040 s fd c h.type h.size (shiftSize h)
  else do
    let (c, r) ← format s fd true data.length c h.type h.count
    if r ≠ 0 then .ok (s, c, [], .done r, [])
    else
      transfer (fun s n k => do
          let d ← part data n k
          daxWrite s fd h.index ((h.byte + n) % 4294967296) d)
        4080 4080 s fd c h.type h.size h.size

/-- `dax_tag_mask`, `src/lib/libdata.c:613-692`: for bits that must be moved the caller's mask is not used. -/
def daxTagMask (s : Server) (fd : Int) (c : TypeCache) (h : Handle) (data mask : List Byte) :
    C (Server × TypeCache × Log × Outcome × List Byte) :=
  if shifted h then do
    let (nd, mk) ← shiftLoop data (h.bit % 8) h.count 0
      (List.replicate (shiftSize h) 0, List.replicate (shiftSize h) 0)
    transfer (fun s n k => do
        let d ← part nd n k
        let m ← part mk n k
        daxMask s fd h.index ((h.byte + n) % 4294967296) d m)
      2040 4080 s fd c h.type h.size (shiftSize h)
  else do
    let (c, r) ← format s fd true data.length c h.type h.count
    if r ≠ 0 then .ok (s, c, [], .done r, [])
    else
      transfer (fun s n k => do
          let d ← part data n k
          let m ← part mask n k
          daxMask s fd h.index ((h.byte + n) % 4294967296) d m)
        2040 2040 s fd c h.type h.size h.size

end Dax.LibData
