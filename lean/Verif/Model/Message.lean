import Verif.Model.Module
import Verif.Model.Override
import Verif.Model.Mapping
import Verif.Model.Atomic
/-!
# Requests: `src/server/message.c`
-/
namespace Dax

/-- A client request after the fields have been taken out of the message. -/
inductive Req where
  | modReg (flags : Nat) (name : Name)
  | modUnreg
  | tagAdd (type count attr : Nat) (name : Name)
  | tagDel (idx : Int)
  | tagGetIdx (idx : Int)
  | tagGetName (name : Name)
  | tagList
  | tagRead (idx off size : Int)
  | tagWrite (idx off : Int) (d : List Byte)
  | tagMWrite (idx off : Int) (d m : List Byte)
  | evAdd (h : Handle) (etype : Int) (arg : List Byte)
  | evDel (idx id : Int)
  | evGet
  | evOpt (idx id : Int) (opts : Nat)
  | cdtCreate (str : Name)
  | cdtGetType (t : Nat)
  | cdtGetName (name : Name)
  | mapAdd (src dst : Handle)
  | mapDel (idx id : Int)
  | mapGet (idx id : Int)
  | grpAdd (hs : List Handle)
  | grpDel (i : Nat)
  | grpRead (i : Nat)
  | grpWrite (i : Nat) (buf : List Byte)
  | grpMWrite
  | atomic (h : Handle) (op : Nat) (buf : List Byte)
  | ovrAdd (idx off : Int) (d m : List Byte)
  | ovrDel (idx off : Int) (m : List Byte)
  | ovrGet (idx off size : Int)
  | ovrSet (idx : Int) (flag : Bool)
deriving Repr

/-- What is sent back: a response payload, an error code, or nothing. -/
inductive Reply where
  | resp (d : List Byte)
  | err (e : Int)
  | none
deriving Repr, DecidableEq

/-- Reply of handlers of the form `if(result) ERROR else RESPONSE(NULL, 0)`. -/
def okOrErr (r : Int) : Reply := if r < 0 then .err r else .resp []

/-- Reply of handlers that return an id, index or 0. -/
def idOrErr (r : Int) : Reply := if r < 0 then .err r else .resp (le4 r)

/-- `is_tag_readonly` / `is_tag_owned` index the database without a check,
`src/server/tagbase.c:703-724`.  Unused slots have attribute 0, or junk in the part that was
never cleared. -/
def rawAttr (s : Server) (idx : Int) : C (Attr × Option Int) :=
  if idx < 0 ∨ idx ≥ s.dbsize then .ub "database index"
  else match s.tag? idx with
    | some t => .ok (t.attr, some t.fd)
    | none => .ok (if idx < TAGLIST_SIZE then {} else s.env.junkAttr, none)

/-- `is_tag_readonly(idx) && !is_tag_owned(fd, idx)`, `src/server/message.c:569,966`. -/
def roForeign (s : Server) (fd idx : Int) : C Bool := do
  let (a, f) ← rawAttr s idx
  .ok (a.readonly && !(a.owned && f == some fd))

/-- A handle as `msg_map_add` and `group_add` lay it out (21 bytes). -/
def handle21 (d : List Byte) : Handle :=
  { index := i32 (leNat (d.take 4)), byte := leNat ((d.drop 4).take 4),
    bit := leNat ((d.drop 8).take 1), count := leNat ((d.drop 9).take 4),
    size := leNat ((d.drop 13).take 4), type := leNat ((d.drop 17).take 4) }

/-- The 21 bytes of a handle. -/
def handleBytes (h : Handle) : List Byte :=
  le4 h.index ++ toLE 4 h.byte ++ toLE 1 h.bit ++ toLE 4 h.count ++ toLE 4 h.size ++ toLE 4 h.type

/-- `dax_tag` as it is sent, `src/server/message.c:503-507`. -/
def tagInfoBytes (t : TagInfo) : List Byte :=
  toLE 4 t.idx ++ toLE 4 t.type ++ toLE 4 t.count ++ toLE 2 t.attr.bits ++ t.name ++ [0]

/-- `msg_mod_register`, `src/server/message.c:378-421`: the fixed test data of the reply. -/
def regTestBytes : List Byte :=
  toLE 2 0xBCDE ++ toLE 4 0x56789ABC ++ toLE 8 0x123456789ABCDEF0 ++
  toLE 4 0x40490FDB ++ toLE 8 0xC18C0574EF0B6796

/-- Registration, `src/server/message.c:378-421`.  (The bytes of the two floating point test
constants are not part of any statement.) -/
def hModReg (s : Server) (fd : Int) (flags : Nat) (name : Name) : C (Server × Reply) :=
  if flags.testBit 0 then do
    let s ← moduleRegister s name fd
    let (s, r) ← tagRead s (-1) INDEX_STARTED 0 4
    match r with
    | .ok d => .ok (s, .resp (d ++ regTestBytes ++ s.env.junk 1))
    | .error _ => .ok (s, .resp (s.env.junk 4 ++ regTestBytes ++ s.env.junk 1))
  else .ok (s, .err ERR_MSG_BAD)

/-- `msg_tag_add`, `src/server/message.c:427-452`. -/
def hTagAdd (s : Server) (fd : Int) (type count attr : Nat) (name : Name) : C (Server × Reply) :=
  if name.head? = some underscore then .ok (s, .err ERR_ILLEGAL)
  else do
    let (s, r) ← tagAdd s fd name type count attr
    .ok (s, idOrErr r)

/-- `msg_tag_del`, `src/server/message.c:456-482`. -/
def hTagDel (s : Server) (idx : Int) : C (Server × Reply) := do
  match ← tagGetIndex s idx with
  | .error _ => .ok (s, .err ERR_ARG)
  | .ok t =>
    if t.name.head? = some underscore then .ok (s, .err ERR_ILLEGAL)
    else do
      let (s, r) ← tagDel s idx
      .ok (s, if r = 0 then .resp (le4 idx) else .err r)

/-- `msg_tag_get`, `src/server/message.c:485-517`.  (On failure `strlen` runs over an
uninitialised local array; only a stack allocation depends on the result.) -/
def hTagGet (s : Server) (r : C (Except Int TagInfo)) : C (Server × Reply) := do
  match ← r with
  | .error e => .ok (s, .err e)
  | .ok t => .ok (s, .resp (tagInfoBytes t))

/-- `msg_tag_read`, `src/server/message.c:531-552`: the local buffer has 4088 bytes. -/
def hTagRead (s : Server) (fd idx off size : Int) : C (Server × Reply) := do
  let (s', r) ← tagRead s fd idx off size
  match r with
  | .error e => .ok (s', .err e)
  | .ok d =>
    if d.length > MSG_DATA_SIZE ∨ size < 0 then .ub "reply buffer"
    else if size > MSG_DATA_SIZE then .ok (s', .none)
    else .ok (s', .resp (s.env.pad d size.toNat))

/-- `msg_tag_write`, `src/server/message.c:556-583`. -/
def hTagWrite (s : Server) (fd idx off : Int) (d : List Byte) : C (Server × Reply) := do
  if ← roForeign s fd idx then .ok (s, .err ERR_READONLY)
  else do
    let (s, r) ← tagWrite s fd idx off d
    if r ≠ 0 then .ok (s, .err r)
    else do
      let s ← mapCheck s idx off d.length
      .ok (s, .resp [])

/-- `msg_tag_mask_write`, `src/server/message.c:587-614`: no exemption for the owner. -/
def hTagMWrite (s : Server) (fd idx off : Int) (d m : List Byte) : C (Server × Reply) := do
  let (a, _) ← rawAttr s idx
  if a.readonly then .ok (s, .err ERR_READONLY)
  else do
    let (s, r) ← tagMaskWrite s fd idx off d m
    if r ≠ 0 then .ok (s, .err r)
    else do
      let s ← mapCheck s idx off d.length
      .ok (s, .resp [])

/-- `msg_evnt_add`, `src/server/message.c:618-646`. -/
def hEvAdd (s : Server) (fd : Int) (h : Handle) (etype : Int) (arg : List Byte) :
    C (Server × Reply) :=
  match s.modByFd fd with
  | none => .ok (s, .err (-1))
  | some m => do
    let (s, r) ← eventAdd s h etype arg m
    .ok (s, idOrErr r)

/-- Reply of `msg_evnt_del` and `msg_evnt_opt`, `src/server/message.c:664-668,694-699`: the
result is only reported when the index is negative. -/
def evReply (s : Server) (idx r : Int) : Reply :=
  if idx ≥ 0 then .resp (le4 idx ++ s.env.junk 4) else .err r

/-- `msg_evnt_del`, `src/server/message.c:649-670`. -/
def hEvDel (s : Server) (fd idx id : Int) : C (Server × Reply) := do
  let (s, r) ← eventDel s idx id ((s.modByFd fd).map (·.uid))
  .ok (s, evReply s idx r)

/-- `msg_evnt_opt`, `src/server/message.c:679-701`. -/
def hEvOpt (s : Server) (fd idx id : Int) (opts : Nat) : C (Server × Reply) := do
  let (s, r) ← eventOpt s idx id opts ((s.modByFd fd).map (·.uid))
  .ok (s, evReply s idx r)

/-- `msg_cdt_create`, `src/server/message.c:705-720`: `result` is not initialised, so the
reply to a repeated identical definition depends on stack contents. -/
def hCdtCreate (s : Server) (str : Name) : C (Server × Reply) := do
  let (tbl, r) ← cdtCreate s.cdts str
  let e := match r.error with
    | some e => e
    | none => i32 (leNat (s.env.junk 4))
  .ok ({ s with cdts := tbl }, if e < 0 then .err e else .resp (toLE 4 r.type))

/-- `msg_cdt_get`, `src/server/message.c:724-770`. -/
def hCdtGet (s : Server) (t : Nat) : C (Server × Reply) := do
  match ← serialize s.cdts t with
  | none => .ok (s, .err ERR_ARG)
  | some str =>
    if str.length + 1 > MSG_DATA_SIZE - 4 then .ok (s, .err ERR_2BIG)
    else .ok (s, .resp (toLE 4 t ++ str ++ [0]))

/-- `msg_map_get`, `src/server/message.c:822-855`: two handles of 21 bytes in a buffer of
`2 * sizeof(tag_handle)` = 48 bytes. -/
def hMapGet (s : Server) (idx id : Int) : C (Server × Reply) := do
  match ← mapGet s idx id with
  | .error e => .ok (s, .err e)
  | .ok (a, b) => .ok (s, .resp (s.env.pad (handleBytes a ++ handleBytes b) 48))

/-- `msg_group_add`, `src/server/message.c:858-876`; the module pointer is not checked. -/
def hGrpAdd (s : Server) (fd : Int) (hs : List Handle) : C (Server × Reply) :=
  match s.modByFd fd with
  | none => .ub "NULL module"
  | some m => do
    let (m', r) ← groupAdd m hs
    .ok (s.updMod m.uid (fun _ => m'), idOrErr r)

/-- `msg_group_del`, `src/server/message.c:879-895`. -/
def hGrpDel (s : Server) (fd : Int) (i : Nat) : C (Server × Reply) :=
  match s.modByFd fd with
  | none => .ub "NULL module"
  | some m => do
    let (m', r) ← groupDel m i
    .ok (s.updMod m.uid (fun _ => m'), idOrErr r)

/-- `msg_group_read`, `src/server/message.c:898-915`. -/
def hGrpRead (s : Server) (fd : Int) (i : Nat) : C (Server × Reply) :=
  match s.modByFd fd with
  | none => .ub "NULL module"
  | some m => do
    let (s, r) ← groupRead s m i
    match r with
    | .error e => .ok (s, .err e)
    | .ok d => .ok (s, .resp d)

/-- `msg_group_write`, `src/server/message.c:918-935`. -/
def hGrpWrite (s : Server) (fd : Int) (i : Nat) (buf : List Byte) : C (Server × Reply) :=
  match s.modByFd fd with
  | none => .ub "NULL module"
  | some m => do
    let (s, r) ← groupWrite s m i buf
    .ok (s, okOrErr r)

/-- `msg_atomic_op`, `src/server/message.c:953-979`. -/
def hAtomic (s : Server) (fd : Int) (h : Handle) (op : Nat) (buf : List Byte) :
    C (Server × Reply) := do
  if ← roForeign s fd h.index then .ok (s, .err ERR_READONLY)
  else do
    let (s, r) ← atomicOp s h buf op
    if r < 0 then .ok (s, .err r)
    else do
      let s ← mapCheck s h.index (i32 h.byte) h.size
      .ok (s, .resp [])

/-- The command table, `src/server/message.c:218-244`, on decoded requests: state after, and
reply. -/
def handle (s : Server) (fd : Int) : Req → C (Server × Reply)
  | .modReg flags name => hModReg s fd flags name
  | .modUnreg => .ok (s, .resp [])
  | .tagAdd type count attr name => hTagAdd s fd type count attr name
  | .tagDel idx => hTagDel s idx
  | .tagGetIdx idx => hTagGet s (tagGetIndex s idx)
  | .tagGetName name => hTagGet s (tagGetName s name)
  | .tagList => .ok (s, .none)
  | .tagRead idx off size => hTagRead s fd idx off size
  | .tagWrite idx off d => hTagWrite s fd idx off d
  | .tagMWrite idx off d m => hTagMWrite s fd idx off d m
  | .evAdd h etype arg => hEvAdd s fd h etype arg
  | .evDel idx id => hEvDel s fd idx id
  | .evGet => .ok (s, .none)
  | .evOpt idx id opts => hEvOpt s fd idx id opts
  | .cdtCreate str => hCdtCreate s str
  | .cdtGetType t => hCdtGet s t
  | .cdtGetName n => hCdtGet s (cdtGetType s.cdts n)
  | .mapAdd a b => do let (s, r) ← mapAdd s a b; .ok (s, idOrErr r)
  | .mapDel idx id => do let (s, r) ← mapDel s idx id; .ok (s, idOrErr r)
  | .mapGet idx id => hMapGet s idx id
  | .grpAdd hs => hGrpAdd s fd hs
  | .grpDel i => hGrpDel s fd i
  | .grpRead i => hGrpRead s fd i
  | .grpWrite i buf => hGrpWrite s fd i buf
  | .grpMWrite => .ok (s, .err ERR_NOTIMPLEMENTED)
  | .atomic h op buf => hAtomic s fd h op buf
  | .ovrAdd idx off d m => do let (s, r) ← overrideAdd s idx off d m; .ok (s, okOrErr r)
  | .ovrDel idx off m => do let (s, r) ← overrideDel s idx off m; .ok (s, okOrErr r)
  | .ovrGet idx off size => do
    match ← overrideGet s idx off size with
    | .error e => .ok (s, .err e)
    | .ok (d, m) => .ok (s, .resp (d ++ m))
  | .ovrSet idx flag => do let (s, r) ← overrideSet s idx flag; .ok (s, okOrErr r)

/-! ## Start-up -/

/-- `_mod_cdt`, `src/server/tagbase.c:386`. -/
def modCdtText : Name :=
  nm "_module:starttime,TIME,1:id,DINT,1:running,BOOL,1:faulted,BOOL,1:status,CHAR,64:stop,BOOL,1:run,BOOL,1:reload,BOOL,1:kill,BOOL,1"

/-- `tag_type_cdt`, `src/server/tagbase.c:394-395`. -/
def descCdtText : Name :=
  nm "_tag_desc:index,DINT,1:type,UDINT,1:count,UDINT,1:attributes,UINT,1:name,CHAR,33"

/-- One of the system tags, `src/server/tagbase.c:404-421`: created, checked to have the
expected index, and marked read-only. -/
def sysTag (s : Server) (name : Name) (type count : Nat) (want : Nat) : C Server := do
  let (s, r) ← tagAdd s (-1) name type count 0
  if r ≠ want then .ub "assert"
  else match s.db[want]? with
    | none => .ub "database index"
    | some t => .ok { s with db := s.db.set want { t with attr := { readonly := true } } }

/-- `virtual_tag_add`, `src/server/tagbase.c:330-352`, with no write function. -/
def virtTag (s : Server) (name : Name) (type count : Nat) (st : Store) : C Server := do
  let (s, r) ← tagAdd s (-1) name type count 0
  match s.tag? r with
  | none => .ub "database index"
  | some t =>
    .ok (s.setTag r { t with data := st, attr := { t.attr with virt := true, readonly := true } })

/-- `initialize_tagbase`, `src/server/tagbase.c:356-429`, with `set_dbsize` writing the size
of the tag array to `_dbsize`. -/
def initServer (e : Env) : C Server := do
  let (tbl, r) ← cdtCreate [] modCdtText
  let (tbl, r2) ← cdtCreate tbl descCdtText
  let s : Server := { cdts := tbl, modType := r.type, env := e }
  let s ← sysTag s (nm "_tagcount") DAX_DINT 1 0
  let s ← sysTag s (nm "_lastindex") DAX_DINT 1 1
  let s ← sysTag s (nm "_tag_added") r2.type 1 2
  let s ← sysTag s (nm "_tag_deleted") r2.type 1 3
  let s ← sysTag s (nm "_dbsize") DAX_DINT 1 4
  let s ← sysTag s (nm "_starttime") DAX_TIME 1 5
  let s ← sysTag s (nm "_lastmodule") DAX_CHAR 33 6
  let s ← sysTag s (nm "_overrides_installed") DAX_DINT 1 7
  let s ← sysTag s (nm "_overrides_set") DAX_DINT 1 8
  let s ← virtTag s (nm "_time") DAX_TIME 1 .vTime
  let s ← virtTag s (nm "_my_tagname") DAX_CHAR 33 .vMyName
  let (s, _) ← tagWrite s (-1) INDEX_STARTED 0 (toLE 8 s.env.now)
  let (s, _) ← tagWrite s (-1) INDEX_DBSIZE 0 (le4 s.dbsize)
  .ok s

/-! ## Histories -/

/-- What happens to the server: a request on a connection, the end of a connection
(`src/server/message.c:326-330`), or a change of the environment (time passes, other memory
contents). -/
inductive Op where
  | req (fd : Int) (r : Req)
  | close (fd : Int)
  | env (e : Env)

/-- One step; replies are not needed for the state. -/
def step (s : Server) : Op → C Server
  | .req fd r => do let (s, _) ← handle s fd r; .ok s
  | .close fd => moduleUnregister s fd
  | .env e => .ok { s with env := e }

/-- A whole history. -/
def run : Server → List Op → C Server
  | s, [] => .ok s
  | s, o :: os => do
    let s ← step s o
    run s os

end Dax
