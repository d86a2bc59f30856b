import Verif.Model.Text
import Verif.Model.LibFunc
/-!
# Configuration of the server: `src/server/options.c`, and what is done with it

`getopt_long`, `inet_aton` and Lua are not code of the project: the first is modelled from its documentation (GNU, without `POSIXLY_CORRECT`, without abbreviations of long options), the second is a
parameter, the third is a table of what the configuration files assign.  Left out: logging, failures of allocation.
-/
set_option autoImplicit false
namespace Dax.ServerOpt
open Conv

/-- What a configuration file leaves in the globals that are read, `src/server/options.c:162-197`: what `lua_tonumber` gives, without its fraction, 0 for a value that is no number, and what
`lua_tostring` gives. -/
structure Globals where
  minBuffers : Int := 0
  socketname : Option Name := none
  serverport : Int := 0
  serverip : Option Name := none
  exclude : Option Name := none
deriving Repr, DecidableEq

/-- `ETC_DIR`; `inet_aton`, none for text that is no address; the files, none if the file is missing or has an error. -/
structure World where
  etc : Name
  aton : Name → Option Nat
  files : Name → Option Globals

/-- The static variables, `src/server/options.c:34-39`. -/
structure Conf where
  configfile : Option Name := none
  socketname : Option Name := none
  serverip : Nat := 0
  serverport : Nat := 0
  exclude : Option Name := none
  minBuffers : Int := 0
deriving Repr, DecidableEq

/-- One result of `getopt_long`: the character, and `optarg`. -/
structure Hit where
  ch : Byte
  arg : Option Name := none
deriving Repr, DecidableEq

/-- `"C:K:S:I:P:X:Vv"`, `src/server/options.c:83`: whether a letter takes an argument. -/
def shorts : List (Byte × Bool) := [(67#8, true), (75#8, true), (83#8, true), (73#8, true), (80#8, true), (88#8, true), (86#8, false), (118#8, false)]

/-- `options`, `src/server/options.c:70-80`. -/
def longs : List (Name × Bool × Byte) :=
  [(nm "configfile", true, 67#8), (nm "logtopics", true, 84#8), (nm "socketname", true, 83#8), (nm "serverip", true, 73#8), (nm "serverport", true, 80#8), (nm "mod-tag-exclude", true, 88#8),
   (nm "version", false, 86#8), (nm "verbose", false, 118#8)]

/-- What `getopt` says of a mistake: `?`. -/
def bad : Hit := ⟨63#8, none⟩

/-- The letters of one word. -/
def letters : Name → List Name → List Hit × List Name
  | [], rest => ([], rest)
  | c :: cs, rest =>
    match shorts.lookup c with
    | none => let r := letters cs rest; (bad :: r.1, r.2)
    | some false => let r := letters cs rest; (⟨c, none⟩ :: r.1, r.2)
    | some true =>
      if cs ≠ [] then ([⟨c, some cs⟩], rest)
      else match rest with
        | [] => ([bad], [])
        | w :: rest => ([⟨c, some w⟩], rest)

/-- A word after its two dashes. -/
def longOption (word : Name) (rest : List Name) : Hit × List Name :=
  let name := word.takeWhile fun b => b != 61#8
  let arg := match word.dropWhile fun b => b != 61#8 with | [] => none | _ :: v => some v
  match longs.find? fun x => x.1 == name with
  | none => (bad, rest)
  | some (_, false, c) => if arg.isSome then (bad, rest) else (⟨c, none⟩, rest)
  | some (_, true, c) =>
    match arg, rest with
    | some v, _ => (⟨c, some v⟩, rest)
    | none, [] => (bad, [])
    | none, w :: rest => (⟨c, some w⟩, rest)

/-- All results of `getopt_long` on the words after the name of the program; the first argument is more than the number of words. -/
def getopt : Nat → List Name → List Hit
  | 0, _ => []
  | _ + 1, [] => []
  | fuel + 1, w :: ws =>
    match w with
    | d :: c :: cs =>
      if d = 45#8 then
        if c = 45#8 then
          if cs = [] then []
          else let r := longOption cs ws; r.1 :: getopt fuel r.2
        else let r := letters (c :: cs) ws; r.1 ++ getopt fuel r.2
      else getopt fuel ws
    | _ => getopt fuel ws

/-- One turn of the loop of `parsecommandline`, `src/server/options.c:66-123`; none for the end of the program.  The options of the log have no effect here. -/
def apply (w : World) (c : Conf) (h : Hit) : Option Conf :=
  if h.ch = 67#8 then some { c with configfile := h.arg }
  else if h.ch = 83#8 then some { c with socketname := h.arg }
  else if h.ch = 73#8 then
    match h.arg.bind w.aton with
    | none => some c
    | some a => some { c with serverip := a }
  else if h.ch = 80#8 then some { c with serverport := u32 (strtol0 (h.arg.getD [])) }
  else if h.ch = 88#8 then some { c with exclude := h.arg }
  else if h.ch = 86#8 then none
  else some c

/-- The loop of `parsecommandline`, `src/server/options.c:66-123`. -/
def parse (w : World) : Conf → List Hit → Option Conf
  | c, [] => some c
  | c, h :: hs =>
    match apply w c h with
    | none => none
    | some c => parse w c hs

/-- `(int)lua_tonumber(L, -1)`. -/
def toInt (x : Int) : C Int := if -2147483648 ≤ x ∧ x ≤ 2147483647 then .ok x else .ub "conversion out of range"

/-- The number of buffers, `src/server/options.c:162-166`. -/
def readMin (c : Conf) (g : Globals) : C Int := if c.minBuffers = 0 then toInt g.minBuffers else .ok c.minBuffers

/-- The port, `src/server/options.c:175-179`: an `int` that becomes `unsigned`. -/
def readPort (c : Conf) (g : Globals) : C Nat := if c.serverport = 0 then C.bind (toInt g.serverport) fun p => .ok (u32 p) else .ok c.serverport

/-- `readconfigfile`, `src/server/options.c:125-203`. -/
def readConfig (w : World) (c : Conf) : C Conf :=
  match w.files (c.configfile.getD (w.etc ++ nm "/tagserver.conf")) with
  | none => .ok c
  | some g => do
    let mb ← readMin c g
    let sp ← readPort c g
    .ok { c with
      minBuffers := mb
      socketname := if c.socketname = none then g.socketname else c.socketname
      serverport := sp
      serverip := if c.serverip = 0 then ((g.serverip.bind w.aton).getD c.serverip) else c.serverip
      exclude := if c.exclude = none then g.exclude else c.exclude }

/-- `setdefaults`, `src/server/options.c:54-61`; the default address is 0 already.  `DEFAULT_PORT` and `DEFAULT_MIN_BUFFERS`: `src/server/options.h:27-35`. -/
def setDefaults (c : Conf) : Conf :=
  { c with
    minBuffers := if c.minBuffers = 0 then 5 else c.minBuffers
    socketname := if c.socketname = none then some (nm "/tmp/opendax") else c.socketname
    serverport := if c.serverport = 0 then 7777 else c.serverport }

/-- `opt_configure`, `src/server/options.c:210-220`, on the words after the name of the program; none for the end of the program. -/
def configure (w : World) (argv : List Name) : C (Option Conf) :=
  match parse w {} (getopt (argv.length + 1) argv) with
  | none => .ok none
  | some c => do
    let c ← readConfig w c
    .ok (some (setDefaults c))

/-- The path the server listens on, `src/server/message.c:136-139`: the name is cut to the 108 bytes of `sun_path`, and has no end if it fills them. -/
def localPath (c : Conf) : C Name :=
  let s := c.socketname.getD []
  if s.length < 108 then .ok s else .ub "text without end"

/-- The port the server listens on, `src/server/message.c:161,174`: an `in_port_t` of 16 bits. -/
def remotePort (c : Conf) : Nat := c.serverport % 65536

/-- `_check_module_tag_exclusion`, `src/server/module.c:169-222`: whether the tag of a module is left out. -/
def excluded (c : Conf) (name : Name) : Bool :=
  match c.exclude with
  | none => false
  | some t => (tokens 32#8 t).any fun x => x == name

end Dax.ServerOpt
