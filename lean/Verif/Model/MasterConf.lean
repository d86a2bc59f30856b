import Verif.Model.Text
/-!
# Configuration of the process master and identity of its children: `src/master/mstr_config.c`, parts of `src/master/process.c`

Lua, the user database and the system calls are not code of the project: fields are what the functions of Lua give, names of users are looked up in a parameter, `setuid` and `setgid` follow their
documentation (Linux).  Left out: limits, logging, failures of allocation, supplementary groups.
-/
set_option autoImplicit false
namespace Dax.MasterConf

/-- A field that is read as text: absent, text or a number, anything else. -/
inductive Field where
  | nil
  | text (s : Name)
  | other
deriving Repr, DecidableEq

/-- What `lua_tostring` gives. -/
def Field.str : Field → Option Name
  | .text s => some s
  | _ => none

/-- The argument of `add_process`. -/
structure Entry where
  name : Field
  path : Field
  args : Field := .nil
  restart : Bool := false
  user : Field := .nil
  group : Field := .nil
  uid : Option Int := none
  gid : Option Int := none
  env : Field := .nil
deriving Repr, DecidableEq

/-- The array for `execvp`: the texts, and whether NULL was stored behind them. -/
structure Args where
  words : List Name
  ended : Bool
deriving Repr, DecidableEq

/-- `dax_process`, `src/master/process.h:49-81`: what the configuration sets.  `env` points to memory of Lua. -/
structure Proc where
  name : Name
  path : Name
  args : Args
  restart : Bool
  user : Name
  group : Name
  uid : Int
  gid : Int
  env : Option Name
deriving Repr, DecidableEq

/-- `_arglist_tok`, `src/master/process.c:65-113`, with a path: without a text the end is not stored. -/
def arglist (path : Name) (str : Option Name) : Args :=
  match str with
  | none => ⟨[path], false⟩
  | some s => ⟨path :: tokens 32#8 s, true⟩

/-- `getpwnam` and `getgrnam`: the numbers, which are `unsigned`. -/
structure Users where
  uid : Name → Option Nat
  gid : Name → Option Nat

/-- `_set_uid_gid`, `src/master/mstr_config.c:101-133`; the texts are never NULL. -/
def setIds (u : Users) (p : Proc) : Proc :=
  let uid := if p.uid < 0 then (match u.uid p.user with | some n => i32 n | none => p.uid) else p.uid
  let gid := if p.gid < 0 then (match u.gid p.group with | some n => i32 n | none => p.gid) else p.gid
  { p with uid := uid, gid := gid }

/-- `strdup` of what `lua_tostring` gives, or a literal for a field that is absent. -/
def textOr (f : Field) (d : Name) : C Name :=
  match f with
  | .nil => .ok d
  | .text s => .ok s
  | .other => .ub "strdup(NULL)"

/-- `_add_process`, `src/master/mstr_config.c:138-232`, with `process_add`, `src/master/process.c:115-159`: a process at the end of the list. -/
def addProcess (u : Users) (l : List Proc) (e : Entry) : C (List Proc) :=
  match e.name.str, e.path.str with
  | some name, some path => do
    let user ← textOr e.user (nm "opendax")
    let group ← textOr e.group (nm "opendax")
    .ok (l ++ [setIds u { name := name, path := path, args := arglist path e.args.str, restart := e.restart, user := user, group := group, uid := (e.uid.map i32).getD (-1), gid := (e.gid.map i32).getD (-1),
                          env := e.env.str }])
  | _, _ => .ok l

/-- The identity of a process. -/
structure Cred where
  ruid : Nat
  euid : Nat
  suid : Nat
  rgid : Nat
  egid : Nat
  sgid : Nat
deriving Repr, DecidableEq

/-- `setuid`: with the rights of root all three, otherwise only to the real or saved one. -/
def setuid (c : Cred) (u : Nat) : Cred :=
  if c.euid = 0 then { c with ruid := u, euid := u, suid := u }
  else if u = c.ruid ∨ u = c.suid then { c with euid := u }
  else c

/-- `setgid`, likewise. -/
def setgid (c : Cred) (g : Nat) : Cred :=
  if c.euid = 0 then { c with rgid := g, egid := g, sgid := g }
  else if g = c.rgid ∨ g = c.sgid then { c with egid := g }
  else c

/-- `_set_user_group`, `src/master/process.c:240-264`: errors are only logged. -/
def setUserGroup (c : Cred) (p : Proc) : Cred :=
  let c1 := if p.uid ≥ 0 ∧ p.uid ≠ c.euid then setuid c p.uid.toNat else c
  if p.gid ≥ 0 ∧ p.gid ≠ c.egid then setgid c1 p.gid.toNat else c1

/-- The child in `process_start`, `src/master/process.c:283-290`: what is executed, with which arguments, as whom. -/
def child (c : Cred) (p : Proc) : C (Name × List Name × Cred) :=
  if p.args.ended then .ok (p.path, p.args.words, setUserGroup c p) else .ub "arguments without end"

/-- `_print_process_list`, `src/master/process.c:516-546`, from a process on: the arguments it prints for each, from place `n` on, which is not set back.  A text that is
NULL is printed as `(null)`. -/
def printList : Nat → List Proc → C (List (List Name))
  | _, [] => .ok []
  | n, p :: ps =>
    if p.args.ended = false then .ub "arguments without end"
    else if n > p.args.words.length then .ub "read outside block"
    else if p.env.isSome then .ub "use after free"
    else do
      let r ← printList p.args.words.length ps
      .ok (p.args.words.drop n :: r)

/-- What `stat` tells of a file. -/
structure Stat where
  uid : Nat
  gid : Nat
  mode : Nat
deriving Repr, DecidableEq

/-- `_check_config_permissions`, `src/master/mstr_config.c:240-272`: whether the file may be executed. -/
def trusted (ruid euid : Nat) (s : Option Stat) : Bool :=
  if euid = 0 ∧ ruid ≠ 0 then
    match s with
    | none => false
    | some s => if s.uid ≠ 0 ∨ s.gid ≠ 0 then false else if s.mode.testBit 1 then false else true
  else true

end Dax.MasterConf
