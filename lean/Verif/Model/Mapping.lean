import Verif.Model.Tagbase
/-!
# Data mapping: `src/server/mapping.c`
-/
namespace Dax

/-- Mask construction loop of `map_add`, `src/server/mapping.c:124-135`: set `r` bits from bit
position `p` on. -/
def maskLoop : Nat → Nat → List Byte → C (List Byte)
  | 0, _, mask => .ok mask
  | r + 1, p, mask =>
    match mask[p / 8]? with
    | none => .ub "write outside map mask"
    | some b => maskLoop r (p + 1) (mask.set (p / 8) (b ||| bitMask (p % 8)))

/-- `map_add`, `src/server/mapping.c:63-143`; `_handles_equal` (`:52-61`) is equality of the
handles.  Bit offsets above 7 are outside the model. -/
def mapAdd (s : Server) (src dst : Handle) : C (Server × Int) :=
  match s.tag? src.index with
  | none => .ok (s, ERR_ARG)
  | some t =>
    match s.tag? dst.index with
    | none => .ok (s, ERR_ARG)
    | some u =>
      if t.attr.virt then .ok (s, ERR_ILLEGAL)
      else if u.attr.virt then .ok (s, ERR_ILLEGAL)
      else if u.attr.readonly then .ok (s, ERR_READONLY)
      else do
        let sz ← tagGetSize s.cdts t
        if u32 ((src.byte : Int) + src.size) > u32 sz then .ok (s, ERR_2BIG)
        else do
          let dz ← tagGetSize s.cdts u
          if u32 ((dst.byte : Int) + dst.size) > u32 dz then .ok (s, ERR_2BIG)
          else if src.size > dst.size then .ok (s, ERR_2BIG)
          else if t.wildMaps then .ub "uninitialised mapping pointer"
          else match t.maps.find? (fun m => m.src = src && m.dst = dst) with
            | some m => .ok (s, m.id)
            | none =>
              if t.nextmap ≥ 2147483647 then .ub "signed overflow" else do
              let mask ← if src.type = DAX_BOOL then
                  if dst.bit > 7 then .ub "bit offset"
                  else do
                    let m ← maskLoop src.count dst.bit (List.replicate src.size 0)
                    .ok (some m)
                else .ok none
              let m : DMap := { id := t.nextmap, src := src, dst := dst, mask := mask }
              .ok (s.setTag src.index
                     { t with nextmap := t.nextmap + 1, maps := m :: t.maps,
                              attr := { t.attr with mapping := true } }, m.id)

/-- Scan of `map_del` behind the first element, `src/server/mapping.c:159-168`: what follows
the first map with that id.  `prev` is never advanced, so this is what the first element is
linked to afterwards. -/
def mapTail (id : Int) : List DMap → Option (List DMap)
  | [] => none
  | m :: ms => if m.id = id then some ms else mapTail id ms

/-- `map_del`, `src/server/mapping.c:146-175`. -/
def mapDel (s : Server) (idx id : Int) : C (Server × Int) :=
  match s.tag? idx with
  | none => .ok (s, ERR_ARG)
  | some t =>
    if t.wildMaps then .ub "uninitialised mapping pointer"
    else match t.maps with
      | [] => .ub "NULL mapping pointer"
      | m :: ms =>
        if m.id = id then .ok (s.setTag idx { t with maps := ms }, 0)
        else match mapTail id ms with
          | some rest => .ok (s.setTag idx { t with maps := m :: rest }, 0)
          | none => .ok (s, ERR_NOTFOUND)

/-- `map_get`, `src/server/mapping.c:177-195`. -/
def mapGet (s : Server) (idx id : Int) : C (Except Int (Handle × Handle)) :=
  match s.tag? idx with
  | none => .ok (.error ERR_ARG)
  | some t =>
    if t.wildMaps then .ub "uninitialised mapping pointer"
    else match t.maps.find? (fun m => m.id = id) with
      | some m => .ok (.ok (m.src, m.dst))
      | none => .ok (.error ERR_NOTFOUND)

/-- Bit moving loop of `map_check`, `src/server/mapping.c:242-256`: `r` bits from position
`p` of the source bytes to position `q` of the new data. -/
def moveBits (src : List Byte) (base : Int) : Nat → Nat → Nat → List Byte → C (List Byte)
  | 0, _, _, out => .ok out
  | r + 1, p, q, out => do
    let b ← getB src (base + (p / 8 : Nat))
    if (b &&& bitMask (p % 8)) ≠ 0 then
      match out[q / 8]? with
      | none => .ub "write outside new data"
      | some o => moveBits src base r (p + 1) (q + 1) (out.set (q / 8) (o ||| bitMask (q % 8)))
    else moveBits src base r (p + 1) (q + 1) out

/-- The range test of `map_check`, `src/server/mapping.c:226` (both comparisons unsigned). -/
def mapOverlap (m : DMap) (off size : Int) : Bool :=
  decide (u32 off ≤ u32 ((m.src.byte : Int) + m.src.size - 1)) &&
  decide (u32 (off + size - 1) ≥ m.src.byte)

/-- The transfer of one map, `src/server/mapping.c:227-270`, without the removal. -/
def mapMove (s : Server) (m : DMap) (block : List Byte) : C (Server × Int) :=
  match m.mask with
  | some mask =>
    if m.src.bit > 7 ∨ m.dst.bit > 7 then .ub "bit offset"
    else do
      let d ← moveBits block m.src.byte m.src.count m.src.bit m.dst.bit
                (List.replicate m.src.size 0)
      tagMaskWrite s (-1) m.dst.index (i32 m.dst.byte) d mask
  | none => do
    let d ← rd block m.src.byte m.src.size
    tagWrite s (-1) m.dst.index (i32 m.dst.byte) d

/-- Loop of `map_check`, `src/server/mapping.c:224-273`, over the maps the list had at the
start.  The source data is read afresh for each map (a map of a tag onto itself changes it).
When the destination is deleted the map is freed and its `next` pointer read afterwards.
An overlapping `memcpy` (a tag mapped onto itself) is taken to copy the old bytes. -/
def mapLoop (s : Server) (idx off size : Int) : List DMap → C Server
  | [] => .ok s
  | m :: ms =>
    if mapOverlap m off size then
      match s.tag? idx with
      | none => .ub "database index"
      | some t => do
        let (s', r) ← mapMove s m t.data.block
        if r = ERR_DELETED then
          if s.env.freedReadable then do
            let (s'', _) ← mapDel s' m.src.index m.id
            mapLoop s'' idx off size ms
          else .ub "use after free"
        else mapLoop s' idx off size ms
    else mapLoop s idx off size ms

/-- `map_check`, `src/server/mapping.c:211-275`. -/
def mapCheck (s : Server) (idx off size : Int) : C Server :=
  match s.tag? idx with
  | none => .ub "database index"
  | some t =>
    if t.wildMaps then .ub "uninitialised mapping pointer"
    else mapLoop s idx off size t.maps

end Dax
