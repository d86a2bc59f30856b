import Verif.Model.LibPath
import Verif.Model.LibData
/-!
# The status tag of a module: `src/lib/libutil.c`

The functions of the library with which a module sets the members of its own status tag.  `byname` is what `dax_tag_byname` finds, as in `Model/LibPath.lean`;
it is asked for two names, and nothing happens between that would change its answers.  Failure of `malloc` is not modelled.
-/
set_option autoImplicit false
namespace Dax.LibUtil
open LibPath LibData

/-- The name of the caller's status tag, the beginning of every function of the file, e.g. `src/lib/libutil.c:48-54`: a read from the tag `_my_tagname` into an array of 33
bytes, then used as a string.  No name if the call ends with an error. -/
def ownName (s : Server) (fd : Int) (byname : Name → Option TagFound) (c : TypeCache) : C (Server × TypeCache × Log × Outcome × Option Name) := do
  let (c, h, r) ← tagHandle s fd byname c (nm "_my_tagname") 0
  if r ≠ 0 then .ok (s, c, [], .done r, none)
  else if h.size > 255 then .ok (s, c, [], .done ERR_2BIG, none)
  else do
    let (s, c, l, o, d) ← daxTagRead s fd c h
    if h.size > TAGNAME_SIZE + 1 then .ub "tag name buffer"
    else if o ≠ .done 0 then .ok (s, c, l, o, none)
    else if d.contains 0 then .ok (s, c, l, o, some (d.takeWhile (· ≠ 0)))
    else .ub "tag name not terminated"

/-- A handle for a member of the caller's status tag, e.g. `src/lib/libutil.c:48-57`: `mem` is the member with the period before it.  The array `runtag` has 64 bytes
(the size given to `snprintf` is 256).  No handle if the call ends with an error. -/
def ownMember (s : Server) (fd : Int) (byname : Name → Option TagFound) (c : TypeCache) (mem : Name) : C (Server × TypeCache × Log × Outcome × Option Handle) := do
  let (s, c, l, o, n) ← ownName s fd byname c
  match n with
  | none => .ok (s, c, l, o, none)
  | some n =>
    if n.length + mem.length + 1 > TAGNAME_SIZE + 32 then .ub "path buffer"
    else do
      let (c, h, r) ← tagHandle s fd byname c (n ++ mem) 0
      if r ≠ 0 then .ok (s, c, l, .done r, none) else .ok (s, c, l, .done 0, some h)

/-- A flag is written: `dax_set_running`, `src/lib/libutil.c:40-65`; `dax_set_faulted`, `:109-134`; and the first part of `dax_default_run` (`:146-165`),
`dax_default_stop` and `dax_default_kill`.  The value is one byte. -/
def setFlag (s : Server) (fd : Int) (byname : Name → Option TagFound) (c : TypeCache) (mem : Name) (val : Byte) : C (Server × TypeCache × Log × Outcome) := do
  let (s, c, l, o, h) ← ownMember s fd byname c mem
  match h with
  | none => .ok (s, c, l, o)
  | some h => do
    let (s, c, l', o, _) ← daxTagWrite s fd c h [if val ≠ 0 then 1 else 0]
    .ok (s, c, l ++ l', o)

/-- `dax_set_running`, `src/lib/libutil.c:40-65`. -/
def setRunning (s : Server) (fd : Int) (byname : Name → Option TagFound) (c : TypeCache) (val : Byte) : C (Server × TypeCache × Log × Outcome) :=
  setFlag s fd byname c (nm ".running") val

/-- `dax_set_faulted`, `src/lib/libutil.c:109-134`. -/
def setFaulted (s : Server) (fd : Int) (byname : Name → Option TagFound) (c : TypeCache) (val : Byte) : C (Server × TypeCache × Log × Outcome) :=
  setFlag s fd byname c (nm ".faulted") val

/-- `strncpy` into a cleared block, `src/lib/libutil.c:93-94`. -/
def strnFill (val : Name) (size : Nat) : List Byte := val.take size ++ List.replicate (size - (val.take size).length) 0

/-- `dax_set_status`, `src/lib/libutil.c:73-98`; `val` is a string, without the zero at its end. -/
def setStatus (s : Server) (fd : Int) (byname : Name → Option TagFound) (c : TypeCache) (val : Name) : C (Server × TypeCache × Log × Outcome) := do
  let (s, c, l, o, h) ← ownMember s fd byname c (nm ".status")
  match h with
  | none => .ok (s, c, l, o)
  | some h => do
    let (s, c, l', o, _) ← daxTagWrite s fd c h (strnFill val h.size)
    .ok (s, c, l ++ l', o)

/-- `dax_default_run`, `src/lib/libutil.c:146-167`, and `dax_default_stop`, `:177-198`: the command is cleared, then the flag `running` is set or cleared.  If there is no handle for the
command nothing else happens; whether clearing it was refused is not looked at. -/
def defaultRun (s : Server) (fd : Int) (byname : Name → Option TagFound) (c : TypeCache) (cmd : Name) (run : Byte) : C (Server × TypeCache × Log × Outcome) := do
  let (s, c, l, o, h) ← ownMember s fd byname c cmd
  match h with
  | none => .ok (s, c, l, o)
  | some h => do
    let (s, c, l', _, _) ← daxTagWrite s fd c h [0]
    let (s, c, l'', o) ← setRunning s fd byname c run
    .ok (s, c, l ++ l' ++ l'', o)

/-- `dax_default_kill`, `src/lib/libutil.c:207-227`. -/
def defaultKill (s : Server) (fd : Int) (byname : Name → Option TagFound) (c : TypeCache) : C (Server × TypeCache × Log × Outcome) :=
  setFlag s fd byname c (nm ".kill") 0

/-- `dax_set_run_callback`, `dax_set_stop_callback` and `dax_set_kill_callback`, `src/lib/libutil.c:257-338`: a set event for the bit of the command.  The answer to
the request for the event contains the number under which `dax_event_add`, `src/lib/libmsg.c:1202-1213`, keeps the function to be called. -/
def setCallback (s : Server) (fd : Int) (byname : Name → Option TagFound) (c : TypeCache) (mem : Name) : C (Server × TypeCache × Log × Outcome × List Byte) := do
  let (s, c, l, o, h) ← ownMember s fd byname c mem
  match h with
  | none => .ok (s, c, l, o, [])
  | some h => do
    let (s, l', e, d) ← transact s fd (.evAdd h EVENT_SET [])
    .ok (s, c, l ++ l', .done e, d)

/-- `dax_set_default_callbacks`, `src/lib/libutil.c:235-245`. -/
def setDefaults (s : Server) (fd : Int) (byname : Name → Option TagFound) (c : TypeCache) : C (Server × TypeCache × Log × Outcome × List (List Byte)) := do
  let (s, c, l, o, d) ← setCallback s fd byname c (nm ".run")
  if o ≠ .done 0 then .ok (s, c, l, o, [d])
  else do
    let (s, c, l', o, d') ← setCallback s fd byname c (nm ".stop")
    if o ≠ .done 0 then .ok (s, c, l ++ l', o, [d, d'])
    else do
      let (s, c, l'', o, d'') ← setCallback s fd byname c (nm ".kill")
      .ok (s, c, l ++ l' ++ l'', o, [d, d', d''])

end Dax.LibUtil
