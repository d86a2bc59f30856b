import Verif.Model.Message
/-!
# Compound types in the client library: `src/lib/libcdt.c`, `src/lib/libmsg.c`

The client talks to a server state `s` over connection `fd`; the requests made here do not
change the server.  Locks and the network are not modelled: a request is answered by `handle`.
-/
set_option autoImplicit false
namespace Dax

/-- `struct datatype` of the library, `src/lib/libdax.h:73-76`; `name = none` is NULL. -/
structure CType where
  name : Option Name
  members : List Member
deriving Repr, DecidableEq

/-- The array `ds->datatypes`, `src/lib/libdax.h:119-120`; its length is `datatype_size`. -/
abbrev TypeCache := List CType

/-- `ERR_TIMEOUT`, `src/opendax.h:120`. -/
def ERR_TIMEOUT : Int := -14

/-- A request and its answer: `_message_send` followed by `_message_recv`,
`src/lib/libmsg.c:35-60,115-162`, without the network.  No answer is a timeout. -/
def ask (s : Server) (fd : Int) (q : Req) : C (Except Int (List Byte)) := do
  let (_, r) ← handle s fd q
  match r with
  | .resp d => .ok (.ok d)
  | .err e => .ok (.error e)
  | .none => .ok (.error ERR_TIMEOUT)

/-- The bytes of a C string: up to the first NUL. -/
def cstr (d : List Byte) : Name := d.takeWhile (· ≠ 0)

/-- Allocation and growth of the type array, `src/lib/libcdt.c:195-226`: the array grows in steps
of `DAX_DATATYPE_SIZE` = 8 until it has an element `index`. -/
def growTypes (c : TypeCache) (index : Nat) : TypeCache :=
  c ++ List.replicate ((index / 8 + 1) * 8 - c.length) ⟨none, []⟩

/-- `_insert_type`, `src/lib/libcdt.c:31-44` (the caller ignores the result). -/
def insertType (c : TypeCache) (index : Nat) (name : Name) : TypeCache :=
  if name.length ≤ TAGNAME_SIZE then c.modify index (fun e => { e with name := some name }) else c

/-- Search of the cache by name, `src/lib/libcdt.c:389-393` (first match, ignoring case). -/
def findType (c : TypeCache) (name : Name) : Option Nat :=
  c.findIdx? fun e => match e.name with
    | some n => strcaseeq name n
    | none => false

/-- `dax_string_to_type`, `src/lib/libcdt.c:363-411`; `get` is `dax_cdt_get` by name.  Returns 0
for an unknown type. -/
def stringToType (get : TypeCache → Name → C (TypeCache × Int)) (c : TypeCache) (name : Name) :
    C (TypeCache × Nat) :=
  match baseNames.find? (fun p => strcaseeq name p.1) with
  | some p => .ok (c, p.2)
  | none =>
    match findType c name with
    | some i => .ok (c, cdtToType i)
    | none => do
      let (c, r) ← get c name
      if r ≠ 0 then .ok (c, 0)
      else match findType c name with
        | some i => .ok (c, cdtToType i)
        | none => .ok (c, 0)

/-- `_add_member_to_cache`, `src/lib/libcdt.c:49-97`. -/
def addMember (get : TypeCache → Name → C (TypeCache × Int)) (c : TypeCache) (index : Nat)
    (desc : Name) : C (TypeCache × Int) :=
  match tokens COMMA desc with
  | name :: type :: rest =>
    let count : Int := match rest with
      | str :: _ => atoi str
      | [] => 0
    if count > 0 then do
      let (c, t) ← stringToType get c type
      .ok (c.modify index (fun e => { e with members := e.members ++ [⟨name, t, count.toNat⟩] }), 0)
    else .ok (c, ERR_ARG)
  | _ => .ok (c, ERR_ARG)

/-- The loop over the members, `src/lib/libcdt.c:236-239`. -/
def addMembers (get : TypeCache → Name → C (TypeCache × Int)) (index : Nat) :
    List Name → TypeCache → C (TypeCache × Int)
  | [], c => .ok (c, 0)
  | str :: rest, c => do
    let (c, r) ← addMember get c index str
    if r ≠ 0 then .ok (c, r) else addMembers get index rest c

/-- `add_cdt_to_cache`, `src/lib/libcdt.c:187-242`. -/
def addCdt (get : TypeCache → Name → C (TypeCache × Int)) (c : TypeCache) (type : Nat)
    (typedesc : Name) : C (TypeCache × Int) :=
  let index := cdtToIndex type
  let c := growTypes c index
  match tokens COLON typedesc with
  | [] => .ok (c, ERR_ARG)
  | name :: members => addMembers get index members (insertType c index name)

/-- `dax_cdt_get`, `src/lib/libmsg.c:1419-1455`.  The recursion through member types of unknown
types is bounded by `fuel`. -/
def cdtGetF (s : Server) (fd : Int) : Nat → TypeCache → Req → C (TypeCache × Int)
  | 0, _, _ => .ub "unbounded recursion"
  | fuel + 1, c, q => do
    match ← ask s fd q with
    | .error e => .ok (c, e)
    | .ok d =>
      addCdt (fun c n =>
          if n.length + 2 > MSG_DATA_SIZE then .ub "strncpy past the message buffer"
          else cdtGetF s fd fuel c (.cdtGetName (n.take TAGNAME_SIZE)))
        c (leNat (d.take 4)) (cstr (d.drop 4))

/-- `dax_cdt_get` with fuel for any acyclic server table. -/
def cdtGet (s : Server) (fd : Int) (c : TypeCache) (q : Req) : C (TypeCache × Int) :=
  cdtGetF s fd (s.cdts.length + 1) c q

/-- `dax_cdt_get(ds, 0, name)`, `src/lib/libmsg.c:1428-1433`; the server looks at the first 32
characters, `src/server/message.c:738-740`. -/
def cdtGetByName (s : Server) (fd : Int) (c : TypeCache) (n : Name) : C (TypeCache × Int) :=
  if n.length + 2 > MSG_DATA_SIZE then .ub "strncpy past the message buffer"
  else cdtGet s fd c (.cdtGetName (n.take TAGNAME_SIZE))

/-- `dax_string_to_type` as called by a module. -/
def daxStringToType (s : Server) (fd : Int) (c : TypeCache) (n : Name) : C (TypeCache × Nat) :=
  stringToType (cdtGetByName s fd) c n

/-- `dax_type_to_string`, `src/lib/libcdt.c:420-472`; `none` is NULL. -/
def typeToString (s : Server) (fd : Int) (c : TypeCache) (t : Nat) : C (TypeCache × Option Name) :=
  if isCustom t then
    match c[cdtToIndex t]? with
    | some ⟨some n, _⟩ => .ok (c, some n)
    | _ => do
      let (c, r) ← cdtGet s fd c (.cdtGetType t)
      if r = 0 then
        match c[cdtToIndex t]? with
        | some e => .ok (c, e.name)
        | none => .ub "datatype array index"
      else .ok (c, none)
  else .ok (c, (baseNames.find? (fun p => p.2 == t)).map (·.1))

/-- Loop over the members in `dax_get_typesize`, `src/lib/libcdt.c:121-141`.  Products are `int`,
the position is `unsigned int`. -/
def csizeLoop (sub : TypeCache → Nat → C (TypeCache × Int)) :
    List Member → TypeCache → Nat → C (TypeCache × Nat)
  | [], c, pos => .ok (c, pos)
  | m :: ms, c, pos =>
    if m.type = DAX_BOOL then csizeLoop sub ms c ((pos + m.count) % 4294967296)
    else
      let pos := alignPos pos
      if isCustom m.type then do
        let (c, r) ← sub c m.type
        let x ← mulI32 r m.count
        let y ← mulI32 x 8
        csizeLoop sub ms c (u32 (pos + y))
      else do
        let y ← mulI32 (typeBits m.type) m.count
        csizeLoop sub ms c (u32 (pos + y))

/-- `dax_get_typesize`, `src/lib/libcdt.c:108-152`. -/
def ctypeSizeF (s : Server) (fd : Int) : Nat → TypeCache → Nat → C (TypeCache × Int)
  | 0, _, _ => .ub "unbounded recursion"
  | fuel + 1, c, t =>
    let t := stripQueue t
    do
    let (c, n) ← typeToString s fd c t
    match n with
    | none => .ok (c, ERR_ARG)
    | some _ =>
      if isCustom t then
        match c[cdtToIndex t]? with
        | none => .ub "datatype array index"
        | some e => do
          let (c, pos) ← csizeLoop (ctypeSizeF s fd fuel) e.members c 0
          .ok (c, if pos ≠ 0 then ((pos - 1) / 8 + 1 : Nat) else 1)
      else
        .ok (c, if typeBits t / 8 = 0 then 1 else (typeBits t / 8 : Nat))

/-- `dax_get_typesize` with fuel for any acyclic table. -/
def ctypeSize (s : Server) (fd : Int) (c : TypeCache) (t : Nat) : C (TypeCache × Int) :=
  ctypeSizeF s fd (s.cdts.length + 1) c t

/-- The description `dax_cdt_create` sends, `src/lib/libmsg.c:1333-1377`: type names come from
`dax_type_to_string` (NULL would be dereferenced), counts are printed with `%d`. -/
def cdtText (s : Server) (fd : Int) : List Member → TypeCache → C (TypeCache × Name)
  | [], c => .ok (c, [])
  | m :: ms, c => do
    let (c, tn) ← typeToString s fd c m.type
    match tn with
    | none => .ub "strlen(NULL)"
    | some tn => do
      let (c, rest) ← cdtText s fd ms c
      .ok (c, COLON :: m.name ++ COMMA :: tn ++ COMMA :: decInt (i32 m.count) ++ rest)

/-- `dax_cdt_create`, `src/lib/libmsg.c:1333-1402`: server and cache afterwards, result and type
code.  On success the text just sent is added to the cache. -/
def daxCdtCreate (s : Server) (fd : Int) (c : TypeCache) (name : Name) (ms : List Member) :
    C (Server × TypeCache × Int × Nat) :=
  if ms = [] then .ok (s, c, ERR_EMPTY, 0)
  else do
    let (c, rest) ← cdtText s fd ms c
    let text := name ++ rest
    if text.length + 1 > MSG_DATA_SIZE then .ok (s, c, ERR_2BIG, 0)
    else do
      let (s, r) ← handle s fd (.cdtCreate text)
      match r with
      | .resp d => do
        let (c, r) ← addCdt (cdtGetByName s fd) c (leNat (d.take 4)) text
        .ok (s, c, r, leNat (d.take 4))
      | .err e => .ok (s, c, e, 0)
      | .none => .ok (s, c, ERR_TIMEOUT, 0)

end Dax
