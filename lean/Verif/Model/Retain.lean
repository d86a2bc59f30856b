import Verif.Model.Server
import Verif.Model.Cdt
/-!
# Tag retention: `src/server/retain.c` (build with SQLite)
-/
namespace Dax

/-- `_add_type`, `src/server/retain.c:177-222`.  `cdt_get_entry` (`src/server/tagbase.c:1146-1156`)
refuses index 0, after which the NULL pointer is used.  The `INSERT` fails when id or name
are present. -/
def retAddType (tbl : List Cdt) : Nat → Ret → Nat → C Ret
  | 0, _, _ => .ub "unbounded recursion"
  | fuel + 1, r, t =>
    if cdtToIndex t = 0 then .ub "NULL datatype"
    else match tbl[cdtToIndex t]? with
      | none => .ub "datatype array"
      | some c => do
        let r ← c.members.foldlM (fun r m =>
          if isCustom m.type then retAddType tbl fuel r m.type else .ok r) r
        match ← serialize tbl t with
        | none => .ub "uninitialised pointer"
        | some d =>
          if r.isOpen && r.types.all (fun x => x.1 ≠ cdtToIndex t && x.2.1 ≠ c.name) then
            .ok { r with types := r.types ++ [(cdtToIndex t, c.name, d)] }
          else .ok r

/-- `ret_add_tag`, `src/server/retain.c:224-256`.  `cdt_get_name` of a queue type is NULL. -/
def retAddTag (s : Server) (idx : Nat) : C Server :=
  match s.db[idx]? with
  | none => .ub "database index"
  | some t => do
    let r ← if isCustom t.type then retAddType s.cdts (s.cdts.length + 1) s.ret t.type
            else .ok s.ret
    if r.isOpen then
      match cdtGetName s.cdts t.type, t.name with
      | some tn, some name =>
        if r.rows.any (fun x => x.name = name) then .ok { s with ret := r }
        else
          .ok { s with
                ret := { r with lastId := r.lastId + 1,
                                rows := r.rows ++ [{ id := r.lastId + 1, name := name, type := tn,
                                                     count := i32 t.count, data := none }] },
                db := s.db.set idx { t with retPtr := r.lastId + 1 } }
      | _, _ => .ub "NULL string"
    else .ok { s with ret := r }

/-- `ret_tag_write`, `src/server/retain.c:266-281`: store the first
`type_size(type) * count` bytes of the data block in the row. -/
def retTagWrite (s : Server) (idx : Int) : C Server :=
  match s.tag? idx with
  | none => .ub "database index"
  | some t => do
    let ts ← typeSize s.cdts t.type
    match t.data with
    | .mem b =>
      if s.ret.isOpen then do
        let d ← rd b 0 (i32 (ts * t.count))
        .ok { s with ret := { s.ret with rows := s.ret.rows.map fun x =>
          if x.id = t.retPtr then { x with data := some d } else x } }
      else .ok s
    | _ => .ub "retained tag without data block"

end Dax
