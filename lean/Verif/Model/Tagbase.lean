import Verif.Model.Events
import Verif.Model.Retain
/-!
# The tag database: `src/server/tagbase.c`, `src/server/virtualtag.c`
-/
namespace Dax

/-- Size in bytes of the data block that `tag_add` allocates,
`src/server/tagbase.c:488-492` (`unsigned int`). -/
def allocSize (tbl : List Cdt) (type count : Nat) : C Nat :=
  if type = DAX_BOOL then .ok (count / 8 + 1)
  else do
    let ts ← typeSize tbl type
    .ok (u32 (ts * count))

/-- `tag_get_size`, `src/server/tagbase.c:122-129` (`int`). -/
def tagGetSize (tbl : List Cdt) (t : Tag) : C Int :=
  if t.type = DAX_BOOL then .ok ((t.count / 8 + 1 : Nat) : Int)
  else do
    let ts ← typeSize tbl t.type
    .ok (i32 (ts * t.count))

/-- Bytewise merge `(new & mask) | (old & ~mask)`. -/
def maskMerge : List Byte → List Byte → List Byte → List Byte
  | n :: ns, m :: ms, o :: os => ((n &&& m) ||| (o &&& ~~~m)) :: maskMerge ns ms os
  | _, _, _ => []

/-! ## Virtual tags -/

/-- `write_queue`, `src/server/virtualtag.c:79-113`, without the final `event_check`.
`none` is the `ERR_ILLEGAL` return.  Growth copies the first `qread` pointers behind the old
end and leaves the rest of the new area uninitialised. -/
def queueWrite (e : Env) (q : Queue) (off : Int) (d : List Byte) : C (Option Queue) :=
  if off ≠ 0 ∨ d.length ≠ q.size then .ok none
  else
    let q := if q.qcount = q.slots.length then
        { q with slots := q.slots ++ q.slots.take q.qread ++
                   List.replicate (q.slots.length - q.qread)
                     (if e.junkQNull then QPtr.null else QPtr.wild) }
      else q
    let next := (q.qread + q.qcount) % q.slots.length
    match q.slots[next]? with
    | some .null =>
      .ok (some { q with slots := q.slots.set next (.blk q.blocks.length),
                         blocks := q.blocks ++ [d], qcount := q.qcount + 1 })
    | some (.blk i) =>
      if i < q.blocks.length then
        .ok (some { q with blocks := q.blocks.set i d, qcount := q.qcount + 1 })
      else .ub "queue block"
    | _ => .ub "uninitialised queue pointer"

/-- `read_queue`, `src/server/virtualtag.c:116-130`; `none` is `ERR_EMPTY`.  Offset and size
of the request are ignored. -/
def queueRead (q : Queue) : C (Option (List Byte × Queue)) :=
  if q.qcount = 0 then .ok none
  else match q.slots[q.qread]? with
    | some (.blk i) =>
      match q.blocks[i]? with
      | some b =>
        .ok (some (b, { q with qread := if q.qread + 1 = q.slots.length then 0 else q.qread + 1,
                               qcount := q.qcount - 1 }))
      | none => .ub "queue block"
    | _ => .ub "uninitialised queue pointer"

/-- `special_tag_write` and `special_tag_mask_write` (identical bodies),
`src/server/virtualtag.c:143-162,164-183`. -/
def specialWrite (s : Server) (t : Tag) (fd idx off : Int) (size : Nat) : Int :=
  if t.type = s.modType then
    if off = MOD_STAT_COMMAND_OFFSET ∧ size = 1 then 0
    else match s.modByFd fd with
      | none => ERR_NOTFOUND
      | some m =>
        if m.tagindex ≠ idx then ERR_READONLY
        else if off < 12 then ERR_READONLY
        else 0
  else 0

/-- The block an event message copies data from. -/
def Store.block : Store → List Byte
  | .mem b => b
  | _ => []

/-- End of `tag_write` / `tag_mask_write`, `src/server/tagbase.c:812-821,857-863`: the data
block is now `b`; run the events, then retention. -/
def commitWrite (s : Server) (idx : Int) (t : Tag) (b : List Byte) (off : Int) (size : Nat) :
    C (Server × Int) := do
  let (evs, ns) ← eventCheck s idx b off size t.events
  let s := { s.setTag idx { t with data := .mem b, events := evs } with sent := s.sent ++ ns }
  if t.attr.retain then do
    let s ← retTagWrite s idx
    .ok (s, 0)
  else .ok (s, 0)

/-- Write to a virtual tag, `src/server/tagbase.c:796-800`: `_time` and `_my_tagname` have no
write function, queues call `write_queue`. -/
def virtWrite (s : Server) (t : Tag) (idx off : Int) (d : List Byte) : C (Server × Int) :=
  match t.data with
  | .vTime => .ok (s, ERR_READONLY)
  | .vMyName => .ok (s, ERR_READONLY)
  | .queue q => do
    match ← queueWrite s.env q off d with
    | none => .ok (s, ERR_ILLEGAL)
    | some q => do
      let (evs, ns) ← eventCheck s idx [] off d.length t.events
      .ok ({ s.setTag idx { t with data := .queue q, events := evs } with
             sent := s.sent ++ ns }, 0)
  | _ => .ub "virtual tag without functions"

/-- `tag_write`, `src/server/tagbase.c:784-822`.  The size argument is the length of `d`. -/
def tagWrite (s : Server) (fd idx off : Int) (d : List Byte) : C (Server × Int) :=
  match s.tag? idx with
  | none => .ok (s, ERR_ARG)
  | some t =>
    if t.attr.virt then virtWrite s t idx off d
    else do
      let e ← addI32 off d.length
      let sz ← tagGetSize s.cdts t
      if e > sz then .ok (s, ERR_2BIG)
      else match t.data with
        | .freed => .ok (s, ERR_DELETED)
        | .mem b =>
          let r := if t.attr.special then specialWrite s t fd idx off d.length else 0
          if r ≠ 0 then .ok (s, r)
          else do
            let b' ← wr b off d
            commitWrite s idx t b' off d.length
        | _ => .ub "ordinary tag without data block"

/-- `tag_mask_write`, `src/server/tagbase.c:826-864`; `d` and `m` have the same length, the
size argument.  The attribute is read before the index is checked: an index outside the
allocated array is undefined behaviour, inside it but unused gives `ERR_ARG` (the slot's
attribute is zero or uninitialised; for uninitialised ones the environment decides). -/
def tagMaskWrite (s : Server) (fd idx off : Int) (d m : List Byte) : C (Server × Int) :=
  if idx < 0 ∨ idx ≥ s.dbsize then .ub "database index"
  else match s.tag? idx with
  | none =>
    if idx ≥ TAGLIST_SIZE ∧ s.env.junkAttr.virt then .ok (s, ERR_ILLEGAL) else .ok (s, ERR_ARG)
  | some t =>
    if t.attr.virt then .ok (s, ERR_ILLEGAL)
    else do
      let e ← addI32 off d.length
      let sz ← tagGetSize s.cdts t
      if e > sz then .ok (s, ERR_2BIG)
      else match t.data with
        | .freed => .ok (s, ERR_DELETED)
        | .mem b =>
          let r := if t.attr.special then specialWrite s t fd idx off d.length else 0
          if r ≠ 0 then .ok (s, r)
          else do
            let old ← rd b off d.length
            let b' ← wr b off (maskMerge d m old)
            commitWrite s idx t b' off d.length
        | _ => .ub "ordinary tag without data block"

/-- Read of a virtual tag: `server_time` (`src/server/virtualtag.c:51-59`),
`get_module_tag_name` (`:61-75`), `read_queue`.  The result is what is stored in the caller's
buffer, which for the last two does not depend on the requested size. -/
def virtRead (s : Server) (t : Tag) (fd idx size : Int) :
    C (Server × Except Int (List Byte)) :=
  match t.data with
  | .vTime => do
    let d ← rd (toLE 8 s.env.now) 0 size
    .ok (s, .ok d)
  | .vMyName =>
    match s.modByFd fd with
    | none => .ok (s, .error ERR_NOTFOUND)
    | some m =>
      if m.tagindex = 0 then .ok (s, .error ERR_NOTFOUND)
      else match s.tag? m.tagindex with
        | none => .ok (s, .error ERR_ARG)
        | some mt =>
          match mt.data, mt.name with
          | .freed, _ => .ok (s, .error ERR_DELETED)
          | _, none => .ub "NULL name"
          | _, some n =>
            .ok (s, .ok (n ++ 0 :: List.replicate (TAGNAME_SIZE - (n.length + 1)) 0))
  | .queue q => do
    match ← queueRead q with
    | none => .ok (s, .error ERR_EMPTY)
    | some (b, q) => .ok (s.setTag idx { t with data := .queue q }, .ok b)
  | _ => .ub "virtual tag without functions"

/-- The override blend of `tag_read`, `src/server/tagbase.c:769-775`. -/
def ovrBlend (t : Tag) (d : List Byte) (off size : Int) : C (List Byte) :=
  if size = 0 then .ok d
  else match t.ovr with
    | none => .ub "NULL override data"
    | some (od, om) => do
      let o ← rd od off size
      let m ← rd om off size
      .ok (maskMerge o m d)

/-- `tag_read`, `src/server/tagbase.c:737-780`. -/
def tagRead (s : Server) (fd idx off size : Int) : C (Server × Except Int (List Byte)) :=
  match s.tag? idx with
  | none => .ok (s, .error ERR_ARG)
  | some t =>
    if t.attr.virt then virtRead s t fd idx size
    else do
      let e ← addI32 off size
      let sz ← tagGetSize s.cdts t
      if e > sz then .ok (s, .error ERR_2BIG)
      else match t.data with
        | .freed => .ok (s, .error ERR_DELETED)
        | .mem b => do
          let d ← rd b off size
          if t.attr.ovrSet then do
            let d ← ovrBlend t d off size
            .ok (s, .ok d)
          else .ok (s, .ok d)
        | _ => .ub "ordinary tag without data block"

/-! ## Creating and deleting tags -/

/-- Bits of the attribute argument. -/
def wantRetain (a : Nat) : Bool := a.testBit 2
def wantOwned (a : Nat) : Bool := a.testBit 5
def wantReadonly (a : Nat) : Bool := a.testBit 0

/-- `_set_attribute`, `src/server/tagbase.c:431-445`. -/
def setAttribute (s : Server) (idx : Nat) (a : Nat) : C Server :=
  if wantRetain a then do
    let s ← retAddTag s idx
    match s.db[idx]? with
    | none => .ub "database index"
    | some t => .ok { s with db := s.db.set idx { t with attr := { t.attr with retain := true } } }
  else match s.db[idx]? with
    | none => .ub "database index"
    | some t =>
      if wantOwned a && wantReadonly a then
        let t := { t with attr := { t.attr with owned := true, readonly := true } }
        .ok { s with db := s.db.set idx t }
      else if wantOwned a then
        .ok { s with db := s.db.set idx { t with attr := { t.attr with owned := true } } }
      else .ok s

/-- `uint16_t` value of the attribute word, `src/opendax.h:148-156`. -/
def Attr.bits (a : Attr) : Nat :=
  a.readonly.toNat + 2 * a.virt.toNat + 4 * a.retain.toNat + 8 * a.ovrSet.toNat +
  16 * a.special.toNat + 32 * a.owned.toNat + 0x1000 * a.mapping.toNat +
  0x2000 * a.event.toNat + 0x4000 * a.override.toNat

/-- The 47-byte descriptor written to `_tag_added` and `_tag_deleted`,
`src/server/tagbase.c:565-571,625-631`.  33 bytes are copied from the name, whatever its
length; the bytes after its NUL are whatever follows in memory.  (The preceding `memset`
writes 48 bytes into the 47-byte array.) -/
def tagDesc (e : Env) (idx : Nat) (type count attr : Nat) (name : Name) : List Byte :=
  toLE 4 idx ++ toLE 4 type ++ toLE 4 count ++ toLE 2 attr ++
    e.pad (name ++ [0]) (TAGNAME_SIZE + 1)

/-- `if(_db[i].data != NULL) tag_write(-1, i, 0, &v, 4)` for a status tag,
`src/server/tagbase.c:553-555,558-560,641-643`. -/
def statusWrite (s : Server) (i : Int) (v : Int) : C Server :=
  match s.tag? i with
  | none => .ok s
  | some t =>
    if t.data = .freed then .ok s
    else do
      let (s, _) ← tagWrite s (-1) i 0 (le4 v)
      .ok s

/-- `xrealloc(_db[n].data, size)`, `src/server/tagbase.c:507-509` and `src/server/func.c`:
the new bytes are uninitialised.  For a queue the block is the function table, which must not
shrink below its 24 bytes.  A request for zero bytes frees the block. -/
def reallocStore (e : Env) (d : Store) (size : Nat) : C Store :=
  match d with
  | .mem b => if size = 0 then .ub "realloc to zero" else .ok (.mem (e.pad b size))
  | .freed => .ub "realloc of a deleted tag"
  | d => if size < 24 then .ub "function table truncated" else .ok d

/-- The new entry of `_db`, `src/server/tagbase.c:522-544,306-325`: attribute word, mapping
pointer and number of the retention row are not assigned, so they are zero in the initially cleared
part of the array and arbitrary beyond it. -/
def newTag (e : Env) (n : Nat) (fd : Int) (name : Name) (type count size : Nat) : Tag :=
  let a : Attr := if n < TAGLIST_SIZE then {} else e.junkAttr
  { type := type, count := count, name := some name, fd := fd, nextevent := 1, nextmap := 1,
    attr := if isQueue type then { a with virt := true } else a,
    events := [], maps := [], wildMaps := if n < TAGLIST_SIZE then false else e.junkMaps,
    data := if isQueue type then
        .queue { size := size, qcount := 0, qread := 0, slots := List.replicate 16 .null,
                 blocks := [] }
      else .mem (List.replicate size 0),
    ovr := none, retPtr := if n < TAGLIST_SIZE then 0 else e.junkRet }

/-- `_cdt_inc_refcount`, `src/server/tagbase.c:179-182`. -/
def incRef (tbl : List Cdt) (type : Nat) : C (List Cdt) :=
  if isCustom type then
    match tbl[cdtToIndex type]? with
    | none => .ub "datatype array index"
    | some c => .ok (tbl.set (cdtToIndex type) { c with refcount := c.refcount + 1 })
  else .ok tbl

/-- `_cdt_dec_refcount`, `src/server/tagbase.c:185-190`. -/
def decRef (tbl : List Cdt) (type : Nat) : C (List Cdt) :=
  if isCustom type then
    match tbl[cdtToIndex type]? with
    | none => .ub "datatype array index"
    | some c => .ok (tbl.set (cdtToIndex type) { c with refcount := c.refcount - 1 })
  else .ok tbl

/-- `tag_add`, part for a new tag, `src/server/tagbase.c:523-577`.
`_tagnextindex` is an `int`. -/
def tagAddNew (s : Server) (fd : Int) (name : Name) (type count attr size : Nat) :
    C (Server × Int) := do
  let n := s.db.length
  if n ≥ 2147483647 then .ub "signed overflow" else do
  let ix ← addIndex s.index s.dbsize name n
  let tbl ← incRef s.cdts type
  let s := { s with index := ix, cdts := tbl }
  let s ← statusWrite s INDEX_LASTINDEX n
  let s := { s with db := s.db ++ [newTag s.env n fd name type count size],
                    tagcount := s.tagcount + 1 }
  let s ← statusWrite s INDEX_TAGCOUNT s.tagcount
  let s ← setAttribute s n attr
  let (s, _) ← tagWrite s (-1) INDEX_ADDED_TAG 0 (tagDesc s.env n type count attr name)
  .ok (s, n)

/-- `tag_add`, part for an existing name, `src/server/tagbase.c:495-520`. -/
def tagAddOld (s : Server) (fd : Int) (n : Nat) (type count attr size : Nat) :
    C (Server × Int) :=
  match s.db[n]? with
  | none => .ub "database index"
  | some t =>
    if t.attr.owned ∧ t.fd ≠ fd then .ok (s, ERR_TAG_DUPL)
    else if t.type = type then
      if t.count ≥ count then do
        let s ← setAttribute s n attr
        .ok (s, n)
      else do
        let d ← reallocStore s.env t.data size
        let s := { s with db := s.db.set n { t with data := d, count := count } }
        let s ← setAttribute s n attr
        let (s, _) ← tagWrite s (-1) INDEX_ADDED_TAG 0 (toLE 4 n)
        .ok (s, n)
    else .ok (s, ERR_TAG_DUPL)

/-- `_database_grow` when the array is full, `src/server/tagbase.c:194-219,467-474`. -/
def growDb (s : Server) : Server :=
  if s.db.length ≥ s.dbsize then { s with dbsize := s.dbsize * 2 } else s

/-- `tag_add`, `src/server/tagbase.c:451-578`, for a count below `2^32`.  Allocation failure
is not modelled. -/
def tagAddC (s : Server) (fd : Int) (name : Name) (type count attr : Nat) : C (Server × Int) :=
  if count = 0 then .ok (s, ERR_ARG)
  else
    let s := growDb s
    if checkType s.cdts type = false then .ok (s, ERR_BADTYPE)
    else if validateName name ≠ 0 then .ok (s, ERR_TAG_BAD)
    else do
      let size ← allocSize s.cdts type count
      match ← getByName s.index name with
      | some n => tagAddOld s fd n type count attr size
      | none => tagAddNew s fd name type count attr size

/-- `tag_add`: the parameter `count` is a `uint32_t`. -/
def tagAdd (s : Server) (fd : Int) (name : Name) (type count attr : Nat) : C (Server × Int) :=
  tagAddC s fd name type (u32 count) attr

/-- `tag_del`, `src/server/tagbase.c:602-646`. -/
def tagDel (s : Server) (idx : Int) : C (Server × Int) :=
  match s.tag? idx with
  | none => .ok (s, ERR_ARG)
  | some t =>
    if t.data = .freed then .ok (s, ERR_DELETED)
    else match t.name with
      | none => .ub "NULL name"
      | some name => do
        let ns ← eventDelCheck s idx t.data.block t.events
        let tbl ← decRef s.cdts t.type
        if t.wildMaps then .ub "uninitialised mapping pointer"
        else do
          let ix ← delIndex s.index name
          let s := { s.setTag idx { t with events := [], maps := [] } with
                     cdts := tbl, index := ix, sent := s.sent ++ ns }
          let (s, _) ← tagWrite s (-1) INDEX_DELETED_TAG 0
            (tagDesc s.env idx.toNat t.type t.count t.attr.bits name)
          match s.tag? idx with
          | none => .ub "database index"
          | some t => do
            let s := { s.setTag idx { t with name := none, data := .freed, attr := {} } with
                       tagcount := s.tagcount - 1 }
            let s ← statusWrite s INDEX_TAGCOUNT s.tagcount
            .ok (s, 0)

/-- What `tag_get_name` / `tag_get_index` return: `dax_tag`, `src/opendax.h:263-269`. -/
structure TagInfo where
  idx : Nat
  name : Name
  type : Nat
  count : Nat
  attr : Attr
deriving Repr, DecidableEq

/-- Copy of one entry, `src/server/tagbase.c:664-669,686-690`. -/
def tagInfo (i : Nat) (t : Tag) : C (Except Int TagInfo) :=
  if t.data = .freed then .ok (.error ERR_DELETED)
  else match t.name with
    | none => .ub "NULL name"
    | some n => .ok (.ok { idx := i, name := n, type := t.type, count := t.count, attr := t.attr })

/-- `tag_get_name`, `src/server/tagbase.c:650-673`. -/
def tagGetName (s : Server) (name : Name) : C (Except Int TagInfo) := do
  match ← getByName s.index name with
  | none => .ok (.error ERR_NOTFOUND)
  | some i =>
    match s.db[i]? with
    | none => .ub "database index"
    | some t => tagInfo i t

/-- `tag_get_index`, `src/server/tagbase.c:677-694`. -/
def tagGetIndex (s : Server) (i : Int) : C (Except Int TagInfo) :=
  match s.tag? i with
  | none => .ok (.error ERR_ARG)
  | some t => tagInfo i.toNat t

end Dax
