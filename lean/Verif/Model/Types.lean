import Verif.Model.Basic
/-!
# Compound data types on the server: `src/server/tagbase.c`, `src/server/daxtypes.h`
-/
namespace Dax

/-- `struct cdt_member`, `src/server/daxtypes.h:60-65`. -/
structure Member where
  name : Name
  type : Nat
  count : Nat
deriving Repr, DecidableEq

/-- `struct datatype`, `src/server/daxtypes.h:71-76` (`flags` is never used). -/
structure Cdt where
  name : Name
  members : List Member
  refcount : Nat := 0
deriving Repr, DecidableEq

/-- `_checktype`, `src/server/tagbase.c:69-116`: is the type code known?
The datatype array is the list `tbl`; `_datatype_index` is its length. -/
def checkType (tbl : List Cdt) (t : Nat) : Bool :=
  let t := stripQueue t
  baseTypes.contains t || (isCustom t && cdtToIndex t < tbl.length)

/-- Rounding of a bit position up to a byte boundary, `src/server/tagbase.c:1424-1427`
(32-bit unsigned). -/
def alignPos (pos : Nat) : Nat :=
  if pos % 8 ≠ 0 then (pos / 8 * 8 + 7 + 1) % 4294967296 else pos

/-- Loop over the members in `type_size`, `src/server/tagbase.c:1417-1438`.
`sub` is the recursive call.  All arithmetic is 32-bit unsigned. -/
def sizeLoop (sub : Nat → C Int) : List Member → Nat → C Nat
  | [], pos => .ok pos
  | m :: ms, pos =>
    if m.type = DAX_BOOL then sizeLoop sub ms ((pos + m.count) % 4294967296)
    else
      let pos := alignPos pos
      if isCustom m.type then do
        let r ← sub m.type
        if r > 0 then sizeLoop sub ms ((pos + u32 r * m.count * 8) % 4294967296)
        else .ub "assert(result > 0)"
      else sizeLoop sub ms ((pos + typeBits m.type * m.count) % 4294967296)

/-- `type_size`, `src/server/tagbase.c:1405-1448`.  The recursion of the C code is bounded
by `fuel`; running out models unbounded recursion.  A custom type with the queue bit set
indexes the datatype array with that bit still set (`CDT_TO_INDEX` keeps it), which is out
of bounds. -/
def typeSizeF (tbl : List Cdt) : Nat → Nat → C Int
  | 0, _ => .ub "unbounded recursion"
  | fuel + 1, t =>
    if checkType tbl t = false then .ok ERR_NOTFOUND
    else if isCustom t then
      match tbl[cdtToIndex t]? with
      | none => .ub "datatype array index"
      | some c => do
        let pos ← sizeLoop (typeSizeF tbl fuel) c.members 0
        .ok (if pos ≠ 0 then ((pos - 1) / 8 + 1 : Nat) else 0)
    else .ok (typeBits t / 8 : Nat)

/-- `type_size` with enough fuel for any acyclic table. -/
def typeSize (tbl : List Cdt) (t : Nat) : C Int := typeSizeF tbl (tbl.length + 1) t

/-- Names of the base types, `src/server/tagbase.c:1049-1080` (same order, same codes). -/
def baseNames : List (Name × Nat) :=
  [(nm "BOOL", DAX_BOOL), (nm "BYTE", DAX_BYTE), (nm "SINT", DAX_SINT), (nm "CHAR", DAX_CHAR),
   (nm "WORD", DAX_WORD), (nm "INT", DAX_INT), (nm "UINT", DAX_UINT), (nm "DWORD", DAX_DWORD),
   (nm "DINT", DAX_DINT), (nm "UDINT", DAX_UDINT), (nm "TIME", DAX_TIME), (nm "REAL", DAX_REAL),
   (nm "LWORD", DAX_LWORD), (nm "LINT", DAX_LINT), (nm "ULINT", DAX_ULINT),
   (nm "LREAL", DAX_LREAL)]

/-- `cdt_get_type`, `src/server/tagbase.c:1045-1088`: type code of a name, 0 if unknown. -/
def cdtGetType (tbl : List Cdt) (name : Name) : Nat :=
  match baseNames.find? (fun p => strcaseeq name p.1) with
  | some p => p.2
  | none =>
    match tbl.findIdx? (fun c => strcaseeq name c.name) with
    | some i => cdtToType i
    | none => 0

/-- `cdt_get_name`, `src/server/tagbase.c:1093-1142`; `none` is NULL. -/
def cdtGetName (tbl : List Cdt) (t : Nat) : Option Name :=
  if isCustom t then (tbl[cdtToIndex t]?).map (·.name)
  else (baseNames.find? (fun p => p.2 == t)).map (·.1)

/-- `_validate_name`, `src/server/tagbase.c:133-150`.  An empty string has `name[0] == 0`. -/
def validateName (name : Name) : Int :=
  if name.length > TAGNAME_SIZE then ERR_2BIG
  else match name with
    | [] => ERR_ARG
    | c :: cs =>
      if !isAlpha c && c ≠ underscore then ERR_ARG
      else if cs.all (fun d => isAlpha d || d = underscore || isDigit d) then 0
      else ERR_ARG

end Dax
