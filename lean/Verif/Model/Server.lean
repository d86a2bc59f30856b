import Verif.Model.Types
import Verif.Model.Index
/-!
# Server state: `src/server/tagbase.h`, `src/server/daxtypes.h`, `src/server/virtualtag.h`
-/
namespace Dax

/-- `tag_handle`, `src/opendax.h:252-259` (`byte`, `count`, `size`, `type` are `uint32_t`,
`bit` is `unsigned char`). -/
structure Handle where
  index : Int
  byte : Nat
  bit : Nat
  count : Nat
  size : Nat
  type : Nat
deriving Repr, DecidableEq

/-- `_dax_event`, `src/server/tagbase.h:75-89`.  `notify` is the identity of the module
structure the pointer refers to (see `Module.uid`). -/
structure Ev where
  id : Int
  byte : Int
  bit : Nat
  count : Int
  size : Nat
  options : Nat := 0
  dtype : Nat
  etype : Int
  data : List Byte
  test : List Byte
  notify : Nat
deriving Repr, DecidableEq

/-- `_dax_datamap`, `src/server/tagbase.h:91-97`. -/
structure DMap where
  id : Int
  src : Handle
  dst : Handle
  mask : Option (List Byte)
deriving Repr, DecidableEq

/-- One entry of the pointer array of a queue: NULL, a block owned by the queue, or an
uninitialised pointer. -/
inductive QPtr where
  | null
  | blk (i : Nat)
  | wild
deriving Repr, DecidableEq

/-- `tag_queue`, `src/server/virtualtag.h:50-58`; `blocks` are the element blocks
allocated so far, `slots` the pointer array (`qsize` is its length). -/
structure Queue where
  size : Nat
  qcount : Nat
  qread : Nat
  slots : List QPtr
  blocks : List (List Byte)
deriving Repr, DecidableEq

/-- What the `data` pointer of a tag refers to. -/
inductive Store where
  /-- NULL: deleted -/
  | freed
  /-- ordinary data block -/
  | mem (b : List Byte)
  /-- `virt_functions` with `server_time` -/
  | vTime
  /-- `virt_functions` with `get_module_tag_name` -/
  | vMyName
  /-- `virt_functions` of a queue -/
  | queue (q : Queue)
deriving Repr, DecidableEq

/-- Attribute word of a tag, `src/opendax.h:148-156`, one field per defined bit. -/
structure Attr where
  readonly : Bool := false
  virt : Bool := false
  retain : Bool := false
  ovrSet : Bool := false
  special : Bool := false
  owned : Bool := false
  mapping : Bool := false
  event : Bool := false
  override : Bool := false
deriving Repr, DecidableEq

/-- `_dax_tag_db`, `src/server/tagbase.h:100-114`.  `name = none` after deletion.
`ovr` holds `(odata, omask)`, which are allocated and freed together.  `wildMaps` says that
the `mappings` pointer was never initialised (see `tagAdd`). -/
structure Tag where
  type : Nat
  attr : Attr
  count : Nat
  name : Option Name
  fd : Int
  nextevent : Int
  nextmap : Int
  events : List Ev
  maps : List DMap
  wildMaps : Bool
  data : Store
  ovr : Option (List Byte × List Byte)
  retPtr : Nat := 0
deriving Repr, DecidableEq

/-- `tag_group`, `src/server/daxtypes.h:30-35` (`size` is always 0 in the code).
`members = none` is a NULL or freed pointer. -/
structure Group where
  notEmpty : Bool
  count : Nat
  members : Option (List Handle)
deriving Repr, DecidableEq

/-- `dax_module`, `src/server/daxtypes.h:41-53`.  `uid` stands for the address of the
structure.  `groupsAlloc` is the allocated group array, `groupsSize` the field
`groups_size`. -/
structure Module where
  uid : Nat
  name : Name
  fd : Int
  tagindex : Int
  eventCount : Int
  groups : List Group
  groupsSize : Nat
deriving Repr, DecidableEq

/-- An event message written to a module's socket by `_send_event`,
`src/server/events.c:34-62`. -/
structure Notif where
  fd : Int
  etype : Int
  idx : Int
  id : Int
  data : Option (List Byte)
deriving Repr, DecidableEq

/-- Everything the server takes from outside: the clock, contents of uninitialised memory,
the configured module-tag exclusion list, floating point, and whether a block that has just
been freed still reads as before (`freedReadable`; reading it is undefined behaviour). -/
structure Env where
  now : Nat := 0
  junkAttr : Attr := {}
  junkMaps : Bool := false
  junkRet : Nat := 0
  junkByte : Nat → Byte := fun _ => 0
  junkQNull : Bool := false
  freedReadable : Bool := false
  exclude : List Name := []
  fband : Nat → List Byte → List Byte → List Byte → Bool := fun _ _ _ _ => false
  fadd : Nat → List Byte → List Byte → List Byte := fun _ a _ => a
  fsub : Nat → List Byte → List Byte → List Byte := fun _ a _ => a

/-- A row of the SQLite table `tags`, `src/server/retain.c:117-122`. -/
structure RetRow where
  id : Nat
  name : Name
  type : Name
  count : Int
  data : Option (List Byte)
deriving Repr, DecidableEq

/-- The retention file: the two SQLite tables, `src/server/retain.c:113-134`.  `lastId` is
the AUTOINCREMENT counter.  `isOpen` is false when the server is built without SQLite or the
file could not be opened. -/
structure Ret where
  isOpen : Bool := false
  types : List (Nat × Name × Name) := []
  rows : List RetRow := []
  lastId : Nat := 0
deriving Repr, DecidableEq

/-- The server.  `db` is the used part of `_db` (its length is `_tagnextindex`), `index` the
used part of `_index`, `dbsize` the allocated length of both, `cdts` the datatype array,
`mods` the registered modules, `sent` the event messages written so far. -/
structure Server where
  db : List Tag := []
  index : List IdxEnt := []
  dbsize : Nat := 1024
  tagcount : Int := 0
  ovrInstalled : Int := 0
  ovrSet : Int := 0
  cdts : List Cdt := []
  modType : Nat := 0
  mods : List Module := []
  nextUid : Nat := 0
  modUuid : Nat := 0
  env : Env := {}
  ret : Ret := {}
  sent : List Notif := []

/-- The `idx`-th entry of `_db` among the entries in use (`0 ≤ idx < _tagnextindex`). -/
def Server.tag? (s : Server) (idx : Int) : Option Tag :=
  if 0 ≤ idx then s.db[idx.toNat]? else none

/-- Replace the `idx`-th entry. -/
def Server.setTag (s : Server) (idx : Int) (t : Tag) : Server :=
  { s with db := s.db.set idx.toNat t }

/-- `module_find_fd` / `_get_module_fd`, `src/server/module.c:91-105,318-332`, on the level
of the set of modules (the circular list itself is modelled in `Model/ModuleRing.lean`). -/
def Server.modByFd (s : Server) (fd : Int) : Option Module := s.mods.find? (fun m => m.fd == fd)

/-- Dereference of a module pointer. -/
def Server.modByUid (s : Server) (uid : Nat) : Option Module :=
  s.mods.find? (fun m => m.uid == uid)

/-- `n` bytes of uninitialised memory. -/
def Env.junk (e : Env) (n : Nat) : List Byte := (List.range n).map e.junkByte

/-- Bytes of a message buffer from some position on: what was sent, followed by
whatever the buffer contained before. -/
def Env.pad (e : Env) (d : List Byte) (n : Nat) : List Byte := (d ++ e.junk (n - d.length)).take n

/-! ## System tag indexes, `src/server/tagbase.h:59-71` -/
def INDEX_TAGCOUNT : Int := 0
def INDEX_LASTINDEX : Int := 1
def INDEX_ADDED_TAG : Int := 2
def INDEX_DELETED_TAG : Int := 3
def INDEX_DBSIZE : Int := 4
def INDEX_STARTED : Int := 5
def INDEX_LASTMODULE : Int := 6
def INDEX_OVRD_INSTALLED : Int := 7
def INDEX_OVRD_SET : Int := 8
def MOD_ID_OFFSET : Int := 8
def MOD_STAT_COMMAND_OFFSET : Int := 77
/-- `DAX_TAGLIST_SIZE`, `src/server/tagbase.h:33-35`. -/
def TAGLIST_SIZE : Nat := 1024

/-! ## Event types, `src/opendax.h:160-172` -/
def EVENT_WRITE : Int := 2
def EVENT_CHANGE : Int := 3
def EVENT_SET : Int := 4
def EVENT_RESET : Int := 5
def EVENT_EQUAL : Int := 6
def EVENT_GREATER : Int := 7
def EVENT_LESS : Int := 8
def EVENT_DEADBAND : Int := 9
def EVENT_DELETED : Int := 10
def DAX_MSGMAX : Nat := 4096
def MSG_HDR_SIZE : Nat := 8
def MSG_DATA_SIZE : Nat := 4088

end Dax
