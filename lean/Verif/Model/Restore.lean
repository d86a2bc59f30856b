import Verif.Model.Message
/-!
# Start-up with a retention file: `_init` of `src/server/retain.c:136-167`
-/
namespace Dax

/-- `_create_types`, `src/server/retain.c:37-67`: the definitions in order of `id` (the list is
taken in that order); failures are only logged. -/
def restoreTypes : List Cdt → List (Nat × Name × Name) → C (List Cdt)
  | tbl, [] => .ok tbl
  | tbl, (_, _, d) :: r => do
    let (tbl, _) ← cdtCreate tbl d
    restoreTypes tbl r

/-- `memcpy(_db[i].data, data, MIN(size, tag_get_size(i)))`, `src/server/retain.c:101`.  A NULL
blob has size 0.  For a virtual tag `data` is the function table. -/
def restoreData (s : Server) (i : Int) (d : List Byte) : C Server :=
  match s.tag? i with
  | none => .ub "database index"
  | some t => do
    let sz ← tagGetSize s.cdts t
    if sz < 0 then .ub "negative size"
    else match t.data with
      | .mem b => do
        let b ← wr b 0 (d.take sz.toNat)
        .ok (s.setTag i { t with data := .mem b })
      | _ => if (d.take sz.toNat).length = 0 then .ok s else .ub "restore into a virtual tag"

/-- `_create_tags`, `src/server/retain.c:69-111`.  The query has no `ORDER BY`; SQLite scans the table in order of
`id`. -/
def restoreTags : Server → List RetRow → C Server
  | s, [] => .ok s
  | s, x :: r => do
    let (s, i) ← tagAdd s (-1) x.name (cdtGetType s.cdts x.type) (u32 x.count) 0
    if i < 0 then restoreTags s r
    else do
      let s ← restoreData s i (x.data.getD [])
      restoreTags s r

/-- `_init`, `src/server/retain.c:136-167`: types, then tags, then both tables are dropped
(which also resets the AUTOINCREMENT counter) and created empty. -/
def retInit (s : Server) (f : Ret) : C Server := do
  let tbl ← restoreTypes s.cdts f.types
  let s ← restoreTags { s with cdts := tbl } f.rows
  .ok { s with ret := { isOpen := true } }

/-- `main`, `src/server/server.c:61-63`: the tag base, then retention.  `none`: built without
SQLite, or the file cannot be opened. -/
def startServer (e : Env) (file : Option Ret) : C Server := do
  let s ← initServer e
  match file with
  | none => .ok s
  | some f => retInit s f

end Dax
