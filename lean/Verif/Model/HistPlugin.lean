import Verif.Model.LibFunc
import Verif.Model.Text
/-!
# The plugins of the logger of histories: `src/modules/histlog/plugins`

The plugin that writes text files and the one that writes to SQLite.  Times are doubles in the code and integers here; `fmt` is the text `%f` gives for one.  SQLite itself is modelled for the
statements the plugin sends and only as far as the effects on the tables go.
-/
set_option autoImplicit false
namespace Dax.HistPlugin
open Conv

/-- A call of `write_data`: name and type of the tag, the value (none for NULL), and the time. -/
structure Rec where
  name : Name
  type : Nat
  value : Option (List Byte)
  time : Int
deriving Repr, DecidableEq

/-! ## Text files -/

/-- `write_data`, `src/modules/histlog/plugins/file/dhl_file.c:115-125`: the line that is written. -/
def fileLine (fmt : Int → Name) (r : Rec) : C Name :=
  match r.value with
  | none => .ok (r.name ++ 44#8 :: (fmt r.time ++ 44#8 :: (nm "NULL" ++ [10#8])))
  | some v => do
    let t ← valToString 256 r.type v 0
    .ok (r.name ++ 44#8 :: (fmt r.time ++ 44#8 :: (t ++ [10#8])))

/-- The files: for each call of `fopen` the name of the file and what was written until it was closed, the last one is the one that is open.  `isOpen` tells whether `log_file` is not NULL, `flag` is
`rotate_flag`. -/
structure Files where
  segs : List (Name × Name)
  isOpen : Bool
  flag : Bool := false
deriving Repr, DecidableEq

/-- `_open_file`, `src/modules/histlog/plugins/file/dhl_file.c:42-48`; `opens` tells whether `fopen` succeeds. -/
def openFile (fmt : Int → Name) (dir : Name) (now : Int) (opens : Bool) (x : Files) : Files :=
  let name := (dir ++ nm "/dax_" ++ fmt now ++ nm ".log").take 255
  if opens then { x with segs := x.segs ++ [(name, [])], isOpen := true } else { x with isOpen := false }

/-- Text at the end of the file that is open. -/
def append (segs : List (Name × Name)) (t : Name) : List (Name × Name) :=
  match segs.getLast? with
  | none => segs
  | some g => segs.dropLast ++ [(g.1, g.2 ++ t)]

/-- What happens to the plugin: `write_data`, the event of the tag for rotation, `flush_data`. -/
inductive FileOp where
  | write (r : Rec)
  | event
  | flush (now : Int) (opens : Bool)
deriving Repr, DecidableEq

/-- One call: `src/modules/histlog/plugins/file/dhl_file.c:37-40,115-125,139-158`.  The tag for rotation is created with the first call of `flush_data`; it and the reset of it are not modelled here. -/
def fileStep (fmt : Int → Name) (dir : Name) (x : Files) : FileOp → C Files
  | .write r => do
    let l ← fileLine fmt r
    if x.isOpen then .ok { x with segs := append x.segs l } else .ub "print to no file"
  | .event => .ok { x with flag := true }
  | .flush now opens =>
    if x.flag then
      if x.isOpen then .ok { openFile fmt dir now opens x with flag := false } else .ub "close of no file"
    else .ok x

/-- Any number of calls. -/
def fileRun (fmt : Int → Name) (dir : Name) : Files → List FileOp → C Files
  | x, [] => .ok x
  | x, o :: os => do
    let x ← fileStep fmt dir x o
    fileRun fmt dir x os

/-! ## SQLite -/

/-- The tables `Tags` and `Data`, `src/modules/histlog/plugins/sqlite/dhl_sqlite.c:54-68`: of a tag its name and what is in the column `type`, the column `id` is the number of the row from 1 on (rows
are never deleted); of the data the columns `tagid`, `timestamp`, both numbers, and `data` as the text of the number. -/
structure Db where
  tags : List (Name × Nat)
  data : List (Int × Int × Option Name)
deriving Repr, DecidableEq

/-- What `snprintf(sql, 256, …)` leaves. -/
def cut (t : Name) : Name := t.take 255

/-- The text after a prefix. -/
def after : Name → Name → Option Name
  | [], t => some t
  | p :: ps, t :: ts => if p = t then after ps ts else none
  | _ :: _, [] => none

/-- A quoted string, and what comes after its closing mark.  Two marks in a row, which stand for one, are not modelled: none. -/
def quoted : Name → Option (Name × Name)
  | [] => none
  | x :: xs =>
    if x = 39#8 then (if xs.head? = some 39#8 then none else some ([], xs))
    else (quoted xs).map fun r => (x :: r.1, r.2)

/-- The statement that adds a tag, `src/modules/histlog/plugins/sqlite/dhl_sqlite.c:148`. -/
def insertTag (name : Name) : Name := cut (nm "INSERT INTO Tags('tagname', 'type') VALUES ('" ++ name ++ nm "', 2)")

/-- SQLite for that statement: a text that is not complete is an error, a name that is there already too. -/
def execTag (db : Db) (sql : Name) : Db :=
  match after (nm "INSERT INTO Tags('tagname', 'type') VALUES ('") sql with
  | none => db
  | some t =>
    match quoted t with
    | none => db
    | some (name, rest) =>
      if rest = nm ", 2)" then
        if (db.tags.map (·.1)).contains name then db else { db with tags := db.tags ++ [(name, 2)] }
      else db

/-- The statement that asks for the number of a tag, `src/modules/histlog/plugins/sqlite/dhl_sqlite.c:157`. -/
def selectTag (name : Name) : Name := cut (nm "SELECT id FROM Tags WHERE tagname = '" ++ name ++ nm "';")

/-- SQLite for that statement: the number of the tag, if there is one; the semicolon may be missing. -/
def execSelect (db : Db) (sql : Name) : Option Nat :=
  match after (nm "SELECT id FROM Tags WHERE tagname = '") sql with
  | none => none
  | some t =>
    match quoted t with
    | none => none
    | some (name, rest) =>
      if rest = nm ";" ∨ rest = [] then ((db.tags.map (·.1)).findIdx? (· == name)).map (· + 1) else none

/-- `add_tag`, `src/modules/histlog/plugins/sqlite/dhl_sqlite.c:136-165`: the tables, and the member `tag_index` of the new object.  `junk` is what `malloc` has left in it. -/
def addTag (db : Db) (junk : Nat) (name : Name) : Db × Nat :=
  let db := execTag db (insertTag name)
  (db, (execSelect db (selectTag name)).getD junk)

/-- A number as SQLite reads it: digits and points after a minus or not. -/
def literal (w : Name) : Bool :=
  let b := if w.head? = some 45#8 then w.drop 1 else w
  b ≠ [] && b.all fun c => (48 ≤ c.toNat && c.toNat ≤ 57) || c == 46#8

/-- The statement that adds data, `src/modules/histlog/plugins/sqlite/dhl_sqlite.c:183-188`; the number of the tag is printed with `%d`. -/
def insertData (fmt : Int → Name) (idx type : Nat) (value : Option (List Byte)) (time : Int) : C Name :=
  match value with
  | none => .ok (cut (nm "INSERT INTO Data ('tagid', 'timestamp') VALUES (" ++ (decInt (i32 idx) ++ (nm ", " ++ (fmt time ++ nm ");")))))
  | some v => do
    let t ← valToString 128 type v 0
    .ok (cut (nm "INSERT INTO Data ('tagid', 'timestamp', 'data') VALUES (" ++ (decInt (i32 idx) ++ (nm ", " ++ (fmt time ++ (nm ", " ++ (t ++ nm ");")))))))

/-- The text up to `stop`, and what comes after it. -/
def upTo (stop : Byte) : Name → Option (Name × Name)
  | [] => none
  | x :: xs => if x = stop then some ([], xs) else (upTo stop xs).map fun r => (x :: r.1, r.2)

/-- The values of a statement as SQLite reads them, `k` and a last one: texts with comma and space between them up to the closing parenthesis; after it the statement ends, with a semicolon or not. -/
def row : Nat → Name → Option (List Name)
  | 0, t =>
    match upTo 41#8 t with
    | some (w, rest) => if rest = nm ";" ∨ rest = [] then some [w] else none
    | none => none
  | k + 1, t =>
    match upTo 44#8 t with
    | some (w, s :: rest) => if s = 32#8 then (row k rest).map fun r => w :: r else none
    | _ => none

/-- SQLite for that statement.  Values that are no numbers are errors: a word would be the name of a column.  `num` and `unfmt` are the numbers of texts. -/
def execData (num unfmt : Name → Int) (db : Db) (sql : Name) : Db :=
  match after (nm "INSERT INTO Data ('tagid', 'timestamp') VALUES (") sql with
  | some t =>
    match row 1 t with
    | some [a, b] => if literal a && literal b then { db with data := db.data ++ [(num a, unfmt b, none)] } else db
    | _ => db
  | none =>
    match after (nm "INSERT INTO Data ('tagid', 'timestamp', 'data') VALUES (") sql with
    | some t =>
      match row 2 t with
      | some [a, b, c] => if literal a && literal b && literal c then { db with data := db.data ++ [(num a, unfmt b, some c)] } else db
      | _ => db
    | none => db

/-- `write_data`, `src/modules/histlog/plugins/sqlite/dhl_sqlite.c:176-195`. -/
def writeData (fmt : Int → Name) (num unfmt : Name → Int) (db : Db) (idx type : Nat) (value : Option (List Byte)) (time : Int) : C Db := do
  let sql ← insertData fmt idx type value time
  .ok (execData num unfmt db sql)

/-- `flush_data`, `src/modules/histlog/plugins/sqlite/dhl_sqlite.c:202-223`: older data is removed if an interval is configured.  `time` is the argument of the function; but the logger calls it without one,
`src/modules/histlog/plugin.c:35`, `src/modules/histlog/histlog.c:275,312`, so that it is whatever the register contains. -/
def flushData (interval time : Int) (db : Db) : Db :=
  if interval > 0 then { db with data := db.data.filter fun r => decide (¬ r.2.1 < time - interval) } else db

/-- What happens to the plugin: `write_data` for a tag that was added, `flush_data` with what is in the register. -/
inductive DbOp where
  | write (idx type : Nat) (value : Option (List Byte)) (time : Int)
  | flush (time : Int)
deriving Repr, DecidableEq

/-- Any number of calls. -/
def dbRun (fmt : Int → Name) (num unfmt : Name → Int) (interval : Int) : Db → List DbOp → C Db
  | db, [] => .ok db
  | db, .write i ty v t :: os => do
    let db ← writeData fmt num unfmt db i ty v t
    dbRun fmt num unfmt interval db os
  | db, .flush t :: os => dbRun fmt num unfmt interval (flushData interval t db) os

end Dax.HistPlugin
