import Verif.Model.Types
import Verif.Model.Text
/-!
# Creating and serialising compound types: `src/server/tagbase.c:886-1039,1353-1400`
-/
namespace Dax

/-- One member as text, `src/server/tagbase.c:1388-1397`.  The count is printed with `%d`. -/
def memberText (tbl : List Cdt) (m : Member) : C Name :=
  match cdtGetName tbl m.type with
  | none => .ub "strlen(NULL)"
  | some tn => .ok (COLON :: m.name ++ COMMA :: tn ++ COMMA :: decInt (i32 m.count))

/-- All members as text. -/
def membersText (tbl : List Cdt) : List Member → C Name
  | [] => .ok []
  | m :: ms => do
    let a ← memberText tbl m
    let b ← membersText tbl ms
    .ok (a ++ b)

/-- `serialize_datatype`, `src/server/tagbase.c:1353-1400`; `none` is the `ERR_ARG` return,
which leaves the caller's pointer unset.  `CDT_TO_INDEX` of a base type is the type code
itself. -/
def serialize (tbl : List Cdt) (t : Nat) : C (Option Name) :=
  match tbl[cdtToIndex t]? with
  | none => .ok none
  | some c => do
    let ms ← membersText tbl c.members
    .ok (some (c.name ++ ms))

/-- `cdt_append`, `src/server/tagbase.c:886-952`: the member, or an error. -/
def cdtAppend (tbl : List Cdt) (members : List Member) (str : Name) : Except Int (List Member) :=
  match tokens COMMA str with
  | name :: typestr :: countstr :: _ =>
    if validateName name ≠ 0 then .error (validateName name)
    else if cdtGetType tbl typestr = 0 then .error ERR_ARG
    else if members.any (fun m => strcaseeq name m.name) then .error ERR_DUPL
    else .ok (members ++ [{ name := name, type := cdtGetType tbl typestr,
                            count := u32 (strtol0 countstr) }])
  | _ => .error ERR_ARG

/-- Loop over the member strings, `src/server/tagbase.c:1001-1009`. -/
def cdtAppendAll (tbl : List Cdt) : List Member → List Name → Except Int (List Member)
  | ms, [] => .ok ms
  | ms, str :: rest =>
    match cdtAppend tbl ms str with
    | .error e => .error e
    | .ok ms' => cdtAppendAll tbl ms' rest

/-- Result of `cdt_create`: the type code (0 on failure) and what was stored in `*error`
(`none` when nothing was). -/
structure CdtResult where
  type : Nat
  error : Option Int
deriving Repr, DecidableEq

/-- `cdt_create`, `src/server/tagbase.c:961-1039`.  Growth of the datatype array only moves
it.  With 2^30 types the codes would run into the queue bit; that many do not fit in memory
and are outside the model. -/
def cdtCreate (tbl : List Cdt) (str : Name) : C (List Cdt × CdtResult) :=
  match tokens COLON str with
  | [] => .ub "strlen(NULL)"
  | name :: members =>
    if validateName name ≠ 0 then .ok (tbl, ⟨0, some (validateName name)⟩)
    else if cdtGetType tbl name ≠ 0 then do
      match ← serialize tbl (cdtGetType tbl name) with
      | none => .ub "uninitialised pointer"
      | some serial =>
        if serial ≠ str then .ok (tbl, ⟨0, some ERR_DUPL⟩)
        else .ok (tbl, ⟨cdtGetType tbl name, none⟩)
    else
      match cdtAppendAll tbl [] members with
      | .error e => .ok (tbl, ⟨0, some e⟩)
      | .ok ms =>
        if tbl.length ≥ 1073741824 then .ub "type codes exhausted"
        else .ok (tbl ++ [{ name := name, members := ms }], ⟨cdtToType tbl.length, some 0⟩)

end Dax
