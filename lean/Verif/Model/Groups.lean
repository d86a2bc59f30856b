import Verif.Model.EventOps
/-!
# Tag groups: `src/server/groups.c`
-/
namespace Dax

def GROUP_START : Nat := 16
def GROUP_MAX : Nat := 4096
def GROUP_MAX_MEMBERS : Nat := 150
def GROUP_DATA_SIZE : Nat := 4084

/-- `_init_group`, `src/server/groups.c:29-34`. -/
def emptyGroup : Group := { notEmpty := false, count := 0, members := none }

/-- First free slot among the first `n`. -/
def freeSlot (gs : List Group) (n : Nat) : Option Nat := (gs.take n).findIdx? (fun g => !g.notEmpty)

/-- Allocation on first use, `src/server/groups.c:44-51`. -/
def groupInit (m : Module) : Module :=
  if m.groupsSize = 0 then
    { m with groups := List.replicate GROUP_START emptyGroup, groupsSize := GROUP_START }
  else m

/-- `_group_add`, `src/server/groups.c:37-71`.  A size field larger than the array would be
read out of bounds. -/
def groupSlot (m : Module) : C (Module × Int) :=
  let m := groupInit m
  if m.groupsSize > m.groups.length then .ub "group array"
  else match freeSlot m.groups m.groupsSize with
    | some n => .ok (m, n)
    | none =>
      let newsize := m.groupsSize * 2
      if newsize > GROUP_MAX then .ok (m, ERR_2BIG)
      else
        .ok ({ m with groups := m.groups.take m.groupsSize ++
                        List.replicate m.groupsSize emptyGroup,
                      groupsSize := newsize }, m.groupsSize)

/-- Size accumulation of `group_add`, `src/server/groups.c:90-106`: `true` if the running sum
(an `int`) ever exceeds the limit. -/
def sizeTooBig : Int → List Handle → Bool
  | _, [] => false
  | acc, h :: hs =>
    if i32 (acc + h.size) > GROUP_DATA_SIZE then true else sizeTooBig (i32 (acc + h.size)) hs

/-- `group_add`, `src/server/groups.c:80-112`, on the module structure. -/
def groupAdd (m : Module) (hs : List Handle) : C (Module × Int) :=
  if hs.length > GROUP_MAX_MEMBERS then .ok (m, ERR_ARG)
  else do
    let (m, n) ← groupSlot m
    if n < 0 then .ok (m, n)
    else match m.groups[n.toNat]? with
      | none => .ub "group array"
      | some g =>
        if sizeTooBig 0 hs then
          .ok ({ m with groups := m.groups.set n.toNat { g with members := none } }, ERR_2BIG)
        else
          .ok ({ m with groups := m.groups.set n.toNat
                          ⟨true, hs.length, some hs⟩ }, n)

/-- `group_del`, `src/server/groups.c:116-126`. -/
def groupDel (m : Module) (i : Nat) : C (Module × Int) :=
  match m.groups[i]? with
  | none => .ub "group array"
  | some g =>
    if g.notEmpty then
      .ok ({ m with groups := m.groups.set i ⟨false, 0, none⟩,
                    groupsSize := u32 ((m.groupsSize : Int) - 1) }, 0)
    else .ok (m, ERR_NOTFOUND)

/-- Loop of `group_read`, `src/server/groups.c:138-142`: `buf` is the reply buffer. -/
def groupReadLoop (s : Server) : List Handle → List Byte → Int → C (Server × Except Int (List Byte × Int))
  | [], buf, off => .ok (s, .ok (buf, off))
  | h :: hs, buf, off => do
    let (s, r) ← tagRead s (-1) h.index (i32 h.byte) (i32 h.size)
    match r with
    | .error e => .ok (s, .error e)
    | .ok d => do
      let buf ← wr buf off d
      groupReadLoop s hs buf (i32 (off + h.size))

/-- `group_read`, `src/server/groups.c:130-144`, with the buffer of `msg_group_read`: the
reply bytes. -/
def groupRead (s : Server) (m : Module) (i : Nat) : C (Server × Except Int (List Byte)) :=
  match m.groups[i]? with
  | none => .ub "group array"
  | some g =>
    if g.notEmpty then
      match g.members with
      | none => .ub "group members"
      | some hs => do
        let (s, r) ← groupReadLoop s (hs.take g.count) (s.env.junk GROUP_DATA_SIZE) 0
        match r with
        | .error e => .ok (s, .error e)
        | .ok (buf, off) =>
          if off < 0 then .ok (s, .error off)
          else do
            let d ← rd buf 0 off
            .ok (s, .ok d)
    else .ok (s, .error ERR_NOTFOUND)

/-- Loop of `group_write`, `src/server/groups.c:155-159`.  The bytes are taken from the buffer
before the write is attempted; a size outside the buffer is undefined behaviour here even if
the write itself would have been refused. -/
def groupWriteLoop (s : Server) : List Handle → List Byte → Int → C (Server × Int)
  | [], _, off => .ok (s, off)
  | h :: hs, buf, off => do
    let d ← rd buf off (i32 h.size)
    let (s, r) ← tagWrite s (-1) h.index (i32 h.byte) d
    if r ≠ 0 then .ok (s, r)
    else groupWriteLoop s hs buf (i32 (off + h.size))

/-- `group_write`, `src/server/groups.c:148-161`. -/
def groupWrite (s : Server) (m : Module) (i : Nat) (buf : List Byte) : C (Server × Int) :=
  match m.groups[i]? with
  | none => .ub "group array"
  | some g =>
    if g.notEmpty then
      match g.members with
      | none => .ub "group members"
      | some hs => groupWriteLoop s (hs.take g.count) buf 0
    else .ok (s, ERR_NOTFOUND)

end Dax
