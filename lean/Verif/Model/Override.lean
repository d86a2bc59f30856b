import Verif.Model.Tagbase
/-!
# Overrides: `src/server/tagbase.c:1218-1344`
-/
namespace Dax

/-- `_db[idx].count * type_size(_db[idx].type)` as an `int`. -/
def ovrSize (tbl : List Cdt) (t : Tag) : C Int := do
  let ts ← typeSize tbl t.type
  .ok (i32 (ts * t.count))

/-- Allocation of the override blocks on first use, `src/server/tagbase.c:1231-1244`: only
the first `size` bytes are cleared. -/
def ovrAlloc (e : Env) (t : Tag) (tagSize : Int) (size : Nat) : C (List Byte × List Byte) :=
  match t.ovr with
  | some o => .ok o
  | none =>
    if (size : Int) > tagSize then .ub "bzero outside block"
    else .ok (e.pad (List.replicate size 0) tagSize.toNat,
              e.pad (List.replicate size 0) tagSize.toNat)

/-- `override_add`, `src/server/tagbase.c:1218-1258`; `d` and `m` have the same length. -/
def overrideAdd (s : Server) (idx off : Int) (d m : List Byte) : C (Server × Int) :=
  match s.tag? idx with
  | none => .ok (s, ERR_ARG)
  | some t =>
    if t.data = .freed then .ok (s, ERR_DELETED)
    else do
      let tagSize ← ovrSize s.cdts t
      if tagSize < 0 ∧ t.ovr = none then .ok (s, ERR_ALLOC)
      else do
        let (od, om) ← ovrAlloc s.env t tagSize d.length
        let s := s.setTag idx { t with ovr := some (od, om) }
        let e ← addI32 off d.length
        if e > tagSize then .ok (s, ERR_2BIG)
        else do
          let od ← wr od off d
          let om ← wr om off m
          let t := { t with ovr := some (od, om) }
          let s := s.setTag idx t
          let s ← if t.attr.override then .ok s
                  else statusWrite { s with ovrInstalled := s.ovrInstalled + 1 }
                         INDEX_OVRD_INSTALLED (s.ovrInstalled + 1)
          match s.tag? idx with
          | none => .ub "database index"
          | some t =>
            .ok (s.setTag idx { t with attr := { t.attr with override := true } }, 0)

/-- `override_del`, `src/server/tagbase.c:1260-1297`; there is no range check. -/
def overrideDel (s : Server) (idx off : Int) (m : List Byte) : C (Server × Int) :=
  match s.tag? idx with
  | none => .ok (s, ERR_ARG)
  | some t =>
    if t.data = .freed then .ok (s, ERR_DELETED)
    else do
      let tagSize ← ovrSize s.cdts t
      match t.ovr with
      | none => .ok (s, ERR_GENERIC)
      | some (od, om) => do
        let om0 ← rd om off m.length
        let om ← wr om off (maskMerge (List.replicate m.length 0) m om0)
        let od0 ← rd od off m.length
        let od ← wr od off (maskMerge (List.replicate m.length 0) m od0)
        let s := s.setTag idx { t with ovr := some (od, om) }
        if (om.take tagSize.toNat).any (· ≠ 0) then .ok (s, 0)
        else if (om.length : Int) < tagSize then .ub "read outside override mask"
        else do
          let s := s.setTag idx { t with ovr := some (od, om),
                                         attr := { t.attr with override := false, ovrSet := false } }
          let s ← statusWrite { s with ovrInstalled := s.ovrInstalled - 1 }
                    INDEX_OVRD_INSTALLED (s.ovrInstalled - 1)
          match s.tag? idx with
          | none => .ub "database index"
          | some t => .ok (s.setTag idx { t with ovr := none }, 0)

/-- `override_get`, `src/server/tagbase.c:1300-1315`, with the reply buffer of
`msg_get_override` (`src/server/message.c:1018-1038`): value and mask parts of the reply.
Both are copied from the start of the blocks, and the value from the plain data. -/
def overrideGet (s : Server) (idx off size : Int) : C (Except Int (List Byte × List Byte)) :=
  match s.tag? idx with
  | none => .ok (.error ERR_ARG)
  | some t =>
    if t.data = .freed then .ok (.error ERR_DELETED)
    else do
      let tagSize ← ovrSize s.cdts t
      let e ← addI32 off size
      if e > tagSize then .ok (.error ERR_2BIG)
      else if 2 * size > MSG_DATA_SIZE then .ub "reply buffer"
      else do
        let d ← rd t.data.block 0 size
        match t.ovr with
        | none => if size = 0 then .ok (.ok (d, [])) else .ub "NULL override mask"
        | some (_, om) => do
          let m ← rd om 0 size
          .ok (.ok (d, m))

/-- `override_set`, `src/server/tagbase.c:1317-1344`. -/
def overrideSet (s : Server) (idx : Int) (flag : Bool) : C (Server × Int) :=
  match s.tag? idx with
  | none => .ok (s, ERR_ARG)
  | some t =>
    if t.data = .freed then .ok (s, ERR_DELETED)
    else if flag then
      if t.ovr = none then .ok (s, ERR_ILLEGAL)
      else if t.attr.ovrSet then .ok (s, 0)
      else do
        let s ← statusWrite { s with ovrSet := s.ovrSet + 1 } INDEX_OVRD_SET (s.ovrSet + 1)
        match s.tag? idx with
        | none => .ub "database index"
        | some t => .ok (s.setTag idx { t with attr := { t.attr with ovrSet := true } }, 0)
    else if t.attr.ovrSet then do
      let s ← statusWrite { s with ovrSet := s.ovrSet - 1 } INDEX_OVRD_SET (s.ovrSet - 1)
      match s.tag? idx with
      | none => .ub "database index"
      | some t => .ok (s.setTag idx { t with attr := { t.attr with ovrSet := false } }, 0)
    else .ok (s, 0)

end Dax
