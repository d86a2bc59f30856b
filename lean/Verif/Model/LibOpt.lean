import Verif.Model.Basic
set_option autoImplicit false

/-!
# Module configuration, `src/lib/libopt.c`

Attributes, the command line and the configuration file.  Left out: the callbacks of attributes (they
get name and value and do not change them), logging, failures of allocation, and what a module does with
the Lua state beforehand.  `getopt_long` and Lua are not code of the project: the first is modelled
from its documentation (GNU, without `POSIXLY_CORRECT`, first use in the process), the second is a table of files.
-/

namespace Dax.LibOpt

/-- `value` of an attribute: NULL, allocated text, the literal `"Yes"`, or memory that was freed. -/
inductive Val where
  | null
  | heap (s : Name)
  | yes
  | freed
deriving Repr, DecidableEq

/-- `optattr`, `src/lib/libdax.h:39-48`; `callback` is left out.  Flags are `CFG_*`, `src/opendax.h:140-145`. -/
structure Attr where
  name : Name
  longopt : Option Name := none
  letter : Byte := 0
  flags : Nat := 0
  defvalue : Option Name := none
  value : Val := .null
deriving Repr, DecidableEq

def Attr.optional (a : Attr) : Bool := a.flags.testBit 0
def Attr.required (a : Attr) : Bool := a.flags.testBit 1
def Attr.cmdline (a : Attr) : Bool := a.flags.testBit 2
def Attr.noValue (a : Attr) : Bool := a.flags.testBit 5

/-- The fields of `dax_state` the configuration uses. -/
structure State where
  attrs : List Attr := []
  modulename : Name := []
deriving Repr, DecidableEq

/-- A global variable in Lua: a boolean, a string or number (as `lua_tostring` makes it, up to the first NUL), or anything else. -/
inductive Lua where
  | bool (b : Bool)
  | str (s : Name)
  | other
deriving Repr, DecidableEq

/-- What the configuration depends on outside the library: the constant `ETC_DIR`, the version of Lua, the files (for a path, and the
values of `calling_module` and `configdir`: `none` if the file cannot be loaded and run, otherwise the globals it assigns) and the
uninitialised variable `result` of `dax_configure`. -/
structure World where
  etc : Name
  version : Name
  files : Name → Name → Name → Option (Name → Option Lua)
  result : Int := 0

/-- `_validate_name`, `src/lib/libopt.c:117-136`, for a name that is not NULL. -/
def validName : Name → Bool
  | [] => false
  | c :: cs => (isAlpha c || c == 95) && cs.all fun c => isAlpha c || c == 95 || isDigit c

/-- `_validate_longopt`, `src/lib/libopt.c:138-153`: the first character is not looked at. -/
def validLong : Name → Bool
  | [] => true
  | _ :: cs => cs.all fun c => isAlpha c || c == 95 || c == 45 || isDigit c

/-- One step of the loop of `_check_attr`, `src/lib/libopt.c:172-184`. -/
def clash (name : Name) (longopt : Option Name) (letter : Byte) (a : Attr) : Bool :=
  a.name == name || (longopt.isSome && a.longopt.isSome && a.longopt == longopt) || a.letter == letter

/-- `dax_add_attribute` with `_check_attr`, `src/lib/libopt.c:156-226`. -/
def addAttribute (st : State) (name longopt : Option Name) (letter : Byte) (flags : Nat) (defvalue : Option Name) : C (State × Int) :=
  match name with
  | none =>
    if longopt.any (fun l => ! validLong l) then .ok (st, ERR_ARG)
    else if st.attrs = [] then .ok (st, ERR_ARG)
    else .ub "strcmp with NULL"
  | some n =>
    if ! validName n then .ok (st, ERR_ARG)
    else if longopt.any (fun l => ! validLong l) then .ok (st, ERR_ARG)
    else if st.attrs.any (clash n longopt letter) then .ok (st, ERR_DUPL)
    else .ok ({ st with attrs := ⟨n, longopt, letter, flags, defvalue, .null⟩ :: st.attrs }, 0)

/-- The attributes every module has, `src/lib/libopt.c:58-75`. -/
def common (w : World) (modulename : Name) : List (Name × Byte × Nat × Option Name) :=
  [(nm "socketname", 85, 0x16, some (nm "/tmp/opendax")), (nm "serverip", 73, 0x16, some (nm "127.0.0.1")),
   (nm "serverport", 80, 0x16, some (nm "7777")), (nm "server", 83, 0x16, some (nm "LOCAL")), (nm "name", 78, 0x16, some modulename),
   (nm "cachesize", 90, 0x16, some (nm "8")), (nm "msgtimeout", 79, 0x16, some (nm "1000")), (nm "config", 67, 0x06, none),
   (nm "confdir", 75, 0x06, some w.etc), (nm "logtopics", 84, 0x06, none), (nm "verbose", 118, 0x04, none)]

def addAll : List (Name × Byte × Nat × Option Name) → State → C State
  | [], st => .ok st
  | (n, c, f, d) :: l, st => do
    let (st, _) ← addAttribute st (some n) (some n) c f d
    addAll l st

/-- `init_config`, `src/lib/libopt.c:47-82`, as `dax_init` calls it (`src/lib/libinit.c:47-86`). -/
def initConfig (w : World) (modulename : Name) : C State := addAll (common w modulename) ⟨[], modulename⟩

/-- `_set_attr`, `src/lib/libopt.c:252-267`; `strdup(NULL)` is undefined. -/
def setAttr (a : Attr) (value : Option Name) : C Attr :=
  if a.noValue then .ok a
  else if a.optional || a.required then
    match value with
    | none => .ub "strdup(NULL)"
    | some v => .ok { a with value := .heap v }
  else .ok { a with value := .yes }

/-- One result of `getopt_long`: the character it returns, the name of the long option and `optarg`. -/
structure Hit where
  ch : Byte
  long : Name := []
  arg : Option Name := none
deriving Repr, DecidableEq

/-- How an option takes its argument, `src/lib/libopt.c:310-333`. -/
inductive Kind where | none | required | optional
deriving Repr, DecidableEq

def Attr.kind (a : Attr) : Kind := if a.optional then .optional else if a.required then .required else .none

/-- `shortopts`, `src/lib/libopt.c:310-319`.  The string is not terminated, see `cluster`. -/
def shortTable (attrs : List Attr) : List (Byte × Kind) :=
  (attrs.filter fun a => a.cmdline && a.letter != 0).map fun a => (a.letter, a.kind)

/-- `options`, `src/lib/libopt.c:320-332`.  The array is not terminated, see `longOption`. -/
def longTable (attrs : List Attr) : List (Name × Kind × Byte) :=
  (attrs.filter (·.cmdline)).filterMap fun a => a.longopt.map fun l => (l, a.kind, a.letter)

/-- What `getopt` says of a mistake on the command line: `?`. -/
def bad : Hit := { ch := 63 }

/-- The letters of one word of the command line.  A letter that is not found is looked for behind the end of the string, which
has no terminator: undefined.  The result has the words that are left. -/
def cluster (tab : List (Byte × Kind)) : Name → List Name → C (List Hit × List Name)
  | [], rest => .ok ([], rest)
  | c :: cs, rest =>
    match tab.lookup c with
    | none => .ub "option string is not terminated"
    | some .none => do
      let (hs, rest) ← cluster tab cs rest
      .ok ({ ch := c } :: hs, rest)
    | some .optional => .ok ([{ ch := c, arg := if cs = [] then none else some cs }], rest)
    | some .required =>
      if cs ≠ [] then .ok ([{ ch := c, arg := some cs }], rest)
      else match rest with
        | [] => .ok ([bad], [])
        | w :: rest => .ok ([{ ch := c, arg := some w }], rest)

/-- A word that starts with `--`: the name up to `=`, and the argument.  A name that is not found is looked for behind the end of the
array: undefined (also for abbreviations). -/
def longOption (tab : List (Name × Kind × Byte)) (word : Name) (rest : List Name) : C (Hit × List Name) :=
  let name := word.takeWhile (· ≠ 61)
  let arg := match word.dropWhile (· ≠ 61) with | [] => none | _ :: v => some v
  match tab.find? fun x => x.1 == name with
  | none => .ub "option array is not terminated"
  | some (l, .none, c) => if arg.isSome then .ok (bad, rest) else .ok ({ ch := c, long := l }, rest)
  | some (l, .optional, c) => .ok ({ ch := c, long := l, arg := arg }, rest)
  | some (l, .required, c) =>
    match arg, rest with
    | some v, _ => .ok ({ ch := c, long := l, arg := some v }, rest)
    | none, [] => .ok (bad, [])
    | none, w :: rest => .ok ({ ch := c, long := l, arg := some w }, rest)

/-- All results of `getopt_long` on the words after the name of the program. -/
def getopt (short : List (Byte × Kind)) (long : List (Name × Kind × Byte)) : Nat → List Name → C (List Hit)
  | 0, _ => .ub "fuel"
  | _ + 1, [] => .ok []
  | fuel + 1, w :: ws =>
    match w with
    | [45, 45] => .ok []
    | 45 :: 45 :: l => do
      let (h, rest) ← longOption long l ws
      let hs ← getopt short long fuel rest
      .ok (h :: hs)
    | 45 :: c :: cs => do
      let (hs, rest) ← cluster short (c :: cs) ws
      let hs' ← getopt short long fuel rest
      .ok (hs ++ hs')
    | _ => getopt short long fuel ws

/-- The first attribute for which `p` holds is set, `src/lib/libopt.c:340-356`. -/
def setWhere (p : Attr → C Bool) (value : Option Name) : List Attr → C (List Attr)
  | [] => .ok []
  | a :: as => do
    let b ← p a
    if b then do
      let a ← setAttr a value
      .ok (a :: as)
    else do
      let as ← setWhere p value as
      .ok (a :: as)

/-- The attribute an option belongs to, `src/lib/libopt.c:338-357`: by its letter, or, if that is 0, by the long name without regard to case; an
attribute without long name is then a NULL argument of `strcasecmp`. -/
def applyHit (h : Hit) (attrs : List Attr) : C (List Attr) :=
  if h.ch ≠ 0 then setWhere (fun a => .ok (a.letter == h.ch)) h.arg attrs
  else setWhere (fun a => match a.longopt with
    | none => .ub "strcasecmp with NULL"
    | some l => .ok (strcaseeq l h.long)) h.arg attrs

def applyAll : List Hit → List Attr → C (List Attr)
  | [], attrs => .ok attrs
  | h :: hs, attrs => do
    let attrs ← applyHit h attrs
    applyAll hs attrs

/-- Letters that mean something else to `getopt`, or come back negative. -/
def special (c : Byte) : Bool := c == 43 || c == 45 || c == 58 || c == 59 || 128 ≤ c.toNat

/-- `_parse_commandline`, `src/lib/libopt.c:269-362`.  An attribute with a special letter is left out (`ub`). -/
def parseCommandline (argv : List Name) (attrs : List Attr) : C (List Attr) :=
  if attrs.any fun a => a.cmdline && special a.letter then .ub "letter with a meaning of its own"
  else do
    let hs ← getopt (shortTable attrs) (longTable attrs) (argv.length + 1) argv
    applyAll hs attrs

/-- `dax_get_attr`, `src/lib/libopt.c:591-607`: the pointer. -/
def getPtr (attrs : List Attr) (name : Name) : Val :=
  match attrs.find? fun a => a.name == name with
  | none => .null
  | some a => a.value

/-- The text a pointer points to; `none` is NULL. -/
def text : Val → C (Option Name)
  | .null => .ok none
  | .heap s => .ok (some s)
  | .yes => .ok (some (nm "Yes"))
  | .freed => .ub "freed memory"

/-- `dax_get_attr` and a look at the text. -/
def getAttr (st : State) (name : Name) : C (Option Name) := text (getPtr st.attrs name)

/-- `dax_set_attr`, `src/lib/libopt.c:609-632`; freeing the literal and `strdup(NULL)` are undefined. -/
def setAttrTo (name : Name) (value : Option Name) : List Attr → C (List Attr × Int)
  | [] => .ok ([], ERR_NOTFOUND)
  | a :: as =>
    if a.name == name then
      if a.value = .yes then .ub "free of a literal"
      else if a.value = .freed then .ub "freed twice"
      else match value, a.defvalue with
        | none, none => .ub "strdup(NULL)"
        | none, some d => .ok ({ a with value := .heap d } :: as, 0)
        | some v, _ => .ok ({ a with value := .heap v } :: as, 0)
    else do
      let (as, r) ← setAttrTo name value as
      .ok (a :: as, r)

/-- The value of a global as text, `src/lib/libopt.c:378-387`. -/
def Lua.text : Lua → Option Name
  | .bool true => some (nm "true")
  | .bool false => some (nm "false")
  | .str s => some s
  | .other => none

/-- The globals after the file was run: what it assigned, otherwise what was there before (`src/lib/libopt.c:466-474`; `luaopen_base` sets
`_VERSION`; functions and tables have no text). -/
def globals (w : World) (calling configdir : Name) (assigned : Name → Option Lua) (n : Name) : Lua :=
  match assigned n with
  | some v => v
  | none =>
    if n = nm "calling_module" then .str calling
    else if n = nm "configdir" then .str configdir
    else if n = nm "_VERSION" then .str w.version
    else .other

/-- One step of `_get_lua_globals`. -/
def luaOne (g : Name → Lua) (a : Attr) : C Attr :=
  match (g a.name).text with
  | none => .ok a
  | some s => if a.value = .null then setAttr a (some s) else .ok a

/-- `_get_lua_globals`, `src/lib/libopt.c:364-398`. -/
def luaGlobals (g : Name → Lua) : List Attr → C (List Attr)
  | [] => .ok []
  | a :: as => do
    let a ← luaOne g a
    let as ← luaGlobals g as
    .ok (a :: as)

/-- `free(cfile)` where it is the value of the attribute, `src/lib/libopt.c:479,486`. -/
def freeConfig : List Attr → C (List Attr)
  | [] => .ok []
  | a :: as =>
    if a.name == nm "config" then
      match a.value with
      | .heap _ => .ok ({ a with value := .freed } :: as)
      | _ => .ub "free"
    else do
      let as ← freeConfig as
      .ok (a :: as)

def freeFile (cfile : Option Name) (attrs : List Attr) : C (List Attr) := if cfile.isSome then freeConfig attrs else .ok attrs

/-- `_mod_config_file`, `src/lib/libopt.c:442-488`. -/
def modConfigFile (w : World) (st : State) : C (State × Int) := do
  let cfile ← text (getPtr st.attrs (nm "config"))
  let cdir ← text (getPtr st.attrs (nm "confdir"))
  match cdir with
  | none => .ub "strlen(NULL)"
  | some cdir =>
    let path := cfile.getD (cdir ++ nm "/" ++ st.modulename ++ nm ".conf")
    match w.files path st.modulename cdir with
    | none => do
      let attrs ← freeFile cfile st.attrs
      .ok ({ st with attrs := attrs }, ERR_NOTFOUND)
    | some assigned => do
      let attrs ← luaGlobals (globals w st.modulename cdir assigned) st.attrs
      let attrs ← freeFile cfile attrs
      .ok ({ st with attrs := attrs }, 0)

/-- `_set_defaults`, `src/lib/libopt.c:490-510`. -/
def setDefault (a : Attr) : Attr :=
  match a.value, a.defvalue with
  | .null, some d => { a with value := .heap d }
  | _, _ => a

/-- The first step of `dax_configure`. -/
def commandPart (argv : List Name) (flags : Nat) (attrs : List Attr) : C (List Attr) :=
  if flags.testBit 2 then parseCommandline argv attrs else .ok attrs

/-- `confdir` gets its default before the file is read, `src/lib/libopt.c:570-574`. -/
def confdirPart (w : World) (attrs : List Attr) : C (List Attr) :=
  if getPtr attrs (nm "confdir") = .null then do
    let (attrs, _) ← setAttrTo (nm "confdir") (some w.etc) attrs
    .ok attrs
  else .ok attrs

/-- The file; without `CFG_MODCONF` the variable `result` stays uninitialised. -/
def filePart (w : World) (flags : Nat) (st : State) : C (State × Int) :=
  if flags.testBit 4 then modConfigFile w st else .ok (st, w.result)

/-- `dax_configure`, `src/lib/libopt.c:551-589`.  Of `_verify_config` (`:534-545`) only that it needs the text of `msgtimeout`. -/
def configure (w : World) (st : State) (argv : List Name) (flags : Nat) : C (State × Int) := do
  let attrs ← commandPart argv flags st.attrs
  let attrs ← confdirPart w attrs
  let name ← text (getPtr attrs (nm "name"))
  let (st, r) ← filePart w flags ⟨attrs, name.getD st.modulename⟩
  let st := { st with attrs := st.attrs.map setDefault }
  let timeout ← text (getPtr st.attrs (nm "msgtimeout"))
  match timeout with
  | none => .ub "strtol(NULL)"
  | some _ => .ok (st, r)

end Dax.LibOpt
