import Verif.Model.Basic
/-!
# Scripts of the Lua module: `src/modules/daxlua/scripts.c`, `threads.c`, `luaopt.c`

The table of scripts, the flags that decide whether a script runs, and the pause of an interval thread.  Failure of `malloc` is not modelled.
-/
set_option autoImplicit false
namespace Dax.Script

/-- `NUM_SCRIPTS`, `src/modules/daxlua/daxlua.h:31`. -/
def NUM_SCRIPTS : Nat := 8

/-- The static variables `scripts`, `scripts_size`, `scriptcount`, `src/modules/daxlua/scripts.c:29-31`: `cap` is the number of scripts that fit in the memory at
`scripts`, `names` are the names of the scripts in it up to `scriptcount`.  Other members of the scripts do not matter for the table. -/
structure Table where
  cap : Nat := 0
  size : Nat := 0
  names : List Name := []
deriving Repr, DecidableEq

/-- The memory behind the next script, `get_new_script`, `src/modules/daxlua/scripts.c:44-59`.  `scripts_size` stays as it is after `realloc`. -/
def Table.grow (t : Table) : Table :=
  if t.names.length = 0 then { t with cap := NUM_SCRIPTS, size := NUM_SCRIPTS }
  else if t.names.length = t.size then { t with cap := t.size + NUM_SCRIPTS }
  else t

/-- `_add_script` as far as the table is concerned, `src/modules/daxlua/luaopt.c:71-119`, with `get_new_script`, `del_script` and `get_script_name`, `src/modules/daxlua/scripts.c:37-85,610-621`: none if the
name is taken.  An error is raised then in the configuration; the model goes on as if the configuration had caught it.  A script without name is not modelled. -/
def Table.add (t : Table) (name : Name) : C (Table × Option Nat) :=
  let t := t.grow
  if t.names.length ≥ t.cap then .ub "write behind the array of scripts"
  else if name ∈ t.names then .ok (t, none)
  else .ok ({ t with names := t.names ++ [name] }, some t.names.length)

/-- `_get_script_id`, `src/modules/daxlua/scripts.c:365-382`; also the search in `_disable_script` and `_enable_script`, `:416-424,447-455`. -/
def Table.idOf (t : Table) (name : Name) : Option Nat := t.names.findIdx? (· = name)

/-- The conversion of a Lua integer to `int`. -/
def toInt (x : Int) : Int := (x + 2147483648) % 4294967296 - 2147483648

/-- `_get_script_name`, `src/modules/daxlua/scripts.c:388-399`, of a number: the index is not compared with 0. -/
def Table.nameOf (t : Table) (id : Int) : C (Option Name) :=
  let idx := toInt id
  if idx < t.names.length then
    if idx < 0 then .ub "read before the array of scripts" else .ok t.names[idx.toNat]?
  else .ok none

/-- Which script `_disable_script` and `_enable_script` mean, by number, `src/modules/daxlua/scripts.c:406-434,437-465`. -/
def Table.target (t : Table) (id : Int) : Option Nat :=
  let idx := toInt id
  if 0 ≤ idx ∧ idx < t.names.length then some idx.toNat else none

/-! ## Whether a script runs -/

/-- What the tag of a script shows besides the name, `write_script_tag`, `src/modules/daxlua/scripts.c:623-636`. -/
structure Shown where
  enable : Bool
  failed : Bool
  executions : Nat
deriving Repr, DecidableEq

/-- The members `enabled`, `failed`, `command`, `flags` and `executions` of a script, `src/modules/daxlua/daxlua.h:72-95`; the flag `runsignal`, `src/modules/daxlua/daxlua.c:29`; the tag of the script in the server; and the
messages of change events for this tag that have not been handled yet, with the data they carry, in the order in which they were sent.  (The server sends a message for every write that changes the tag, C27.) -/
structure Ctl where
  enabled : Bool
  failed : Bool := false
  command : Nat := 0
  failOnError : Bool := true
  executions : Nat := 0
  runsignal : Bool := true
  tag : Shown
  msgs : List Shown := []
deriving Repr, DecidableEq

/-- A write of the tag, by any module. -/
def Ctl.write (c : Ctl) (v : Shown) : Ctl := if c.tag = v then c else { c with tag := v, msgs := c.msgs ++ [v] }

/-- `write_script_tag`, `src/modules/daxlua/scripts.c:623-636`. -/
def Ctl.show (c : Ctl) : Ctl := c.write ⟨c.enabled, c.failed, c.executions⟩

/-- What happens to one script. -/
inductive Act where
  /-- It is its turn; `ready` is whether `_receive_globals` succeeds, `disable` is whether it calls `disable_self`, `error` whether it ends with an error. -/
  | turn (ready disable error : Bool)
  /-- Another script calls `enable_script` or `disable_script`, or a trigger for this comes, `src/modules/daxlua/scripts.c:427,458`, `src/modules/daxlua/threads.c:321-335`. -/
  | command (enable : Bool)
  /-- A module writes the member `enable` of the tag. -/
  | client (enable : Bool)
  /-- The next message is handled, `_script_tag_callback`. -/
  | deliver
deriving Repr, DecidableEq

/-- The beginning of `run_script`, `src/modules/daxlua/scripts.c:237-244`. -/
def Ctl.obey (c : Ctl) : Ctl :=
  if c.command = 0 then c
  else if c.command = 1 then { c with enabled := true, command := 0 }
  else if c.command = 2 then { c with enabled := false, command := 0 }
  else { c with command := 0 }

/-- One step, and whether the script was executed: `run_script`, `src/modules/daxlua/scripts.c:231-287`, without the transfer of tags; `_disable_self`, `:292-299`; `_script_tag_callback`, `:529-543`.  The counter has 64 bits.  A turn and a message do not interleave in the model. -/
def Ctl.step (c : Ctl) : Act → Ctl × Bool
  | .turn ready disable error =>
    let c := c.obey
    if c.failed || !c.enabled || !c.runsignal || !ready then (c, false)
    else
      let c := if disable then { c with enabled := false } else c
      let c := if error && c.failOnError then { c with failed := true } else c
      ({ c with executions := (c.executions + 1) % 18446744073709551616 }.show, true)
  | .command enable => ({ c with command := if enable then 1 else 2 }, false)
  | .client enable => (c.write { c.tag with enable := enable }, false)
  | .deliver =>
    match c.msgs with
    | [] => (c, false)
    | m :: ms => ({ c with msgs := ms, enabled := m.enable }.show, false)

/-- A history, and which of its turns executed the script. -/
def Ctl.run (c : Ctl) : List Act → Ctl × List Bool
  | [] => (c, [])
  | a :: as =>
    let (c1, x) := c.step a
    let (c2, l) := c1.run as
    (c2, match a with | .turn _ _ _ => x :: l | _ => l)

/-! ## Interval threads -/

/-- The pause of `_interval_thread` in microseconds, `src/modules/daxlua/threads.c:143`, if its scripts were begun at the time `(s₀, n₀)` and done at `(s₁, n₁)`, in seconds and nanoseconds; the interval is in milliseconds.  The product
is one of 32 bit numbers.  The sum is one of doubles, which is cut off towards 0; rounding does not change its integer part for times below 2^40 seconds. -/
def pause (interval : Nat) (s₀ n₀ s₁ n₁ : Int) : Int :=
  (1000 * (((interval * 1000 % 4294967296 : Nat) : Int) - (s₁ - s₀) * 1000000) + (n₁ - n₀)).tdiv 1000

end Dax.Script
