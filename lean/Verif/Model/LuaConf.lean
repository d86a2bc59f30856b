import Verif.Model.LibNames
import Verif.Model.MasterConf
import Verif.Model.LibFunc
/-!
# Configuration of Lua scripts and their triggers: `src/modules/daxlua/luaopt.c`, parts of `scripts.c` and `threads.c`

Fields are what the functions of Lua give.  An error in the configuration ends it, and the module (`src/modules/daxlua/daxlua.c:82-86`); a configuration file that catches the error is not modelled.  The memory
of the table of scripts is in `LuaScript`.
-/
set_option autoImplicit false
namespace Dax.LuaConf
open Conv
open Dax.MasterConf (Field)

/-- The table that describes a trigger.  The value is a number without fraction. -/
structure TrigArg where
  tag : Field
  type : Field
  count : Int := 0
  value : Int := 0
deriving Repr, DecidableEq

/-- A field that should be such a table. -/
inductive TrigField where
  | nil
  | table (t : TrigArg)
  | other
deriving Repr, DecidableEq

/-- `trigger_t`, `src/modules/daxlua/daxlua.h:61-70`: what the configuration sets. -/
structure Trigger where
  tag : Name
  count : Int
  type : Int
  value : Int
deriving Repr, DecidableEq

/-- `_set_trigger`, `src/modules/daxlua/luaopt.c:33-66`: none is an error.  The text is copied before it is compared with NULL. -/
def setTrigger (t : TrigArg) : C (Option Trigger) :=
  match t.tag.str with
  | none => .ub "strdup of NULL"
  | some tag =>
    match t.type.str with
    | none => .ub "strcasecmp of NULL"
    | some s => if eventStringToType s = 0 then .ok none else .ok (some ⟨tag, i32 t.count, eventStringToType s, t.value⟩)

/-- One of the three triggers in `_add_script`, `src/modules/daxlua/luaopt.c:113-129`: the outer none is an error, the inner one no trigger. -/
def readTrigger : TrigField → C (Option (Option Trigger))
  | .nil => .ok (some none)
  | .other => .ok none
  | .table t => do
    let r ← setTrigger t
    .ok (r.map some)

/-- The argument of `add_script`. -/
structure Arg where
  enable : Option Bool := none
  thread : Field := .nil
  name : Field
  trigger : TrigField := .nil
  enableTrigger : TrigField := .nil
  disableTrigger : TrigField := .nil
  filename : Field := .nil
  failOnError : Option Bool := none
  autoRun : Option Bool := none
  autoReload : Option Bool := none
deriving Repr, DecidableEq

/-- `script_t`, `src/modules/daxlua/daxlua.h:73-95`: what the configuration sets; the flags apart. -/
structure Script where
  enabled : Bool
  thread : Option Name
  name : Name
  run : Option Trigger
  enable : Option Trigger
  disable : Option Trigger
  filename : Option Name
  failOnError : Bool
  autoRun : Bool
  autoReload : Bool
deriving Repr, DecidableEq

/-- The three triggers in their order. -/
def triggers (a : Arg) : C (Option (Option Trigger × Option Trigger × Option Trigger)) := do
  let r ← readTrigger a.trigger
  match r with
  | none => .ok none
  | some r => do
    let e ← readTrigger a.enableTrigger
    match e with
    | none => .ok none
    | some e => do
      let d ← readTrigger a.disableTrigger
      match d with
      | none => .ok none
      | some d => .ok (some (r, e, d))

/-- `_add_script`, `src/modules/daxlua/luaopt.c:68-217`, with `get_new_script`, `src/modules/daxlua/scripts.c:63-78`, for the flags: none is an error.  A script without file is not enabled. -/
def addScript (l : List Script) (a : Arg) : C (Option (List Script)) :=
  match a.name.str with
  | none => .ok none
  | some name =>
    if l.any (fun s => s.name == name) then .ok none
    else do
      let t ← triggers a
      match t with
      | none => .ok none
      | some (r, e, d) =>
        .ok (some (l ++ [{ enabled := a.filename.str.isSome && a.enable.getD true, thread := a.thread.str, name := name, run := r, enable := e, disable := d, filename := a.filename.str,
                           failOnError := a.failOnError.getD true, autoRun := a.autoRun.getD true, autoReload := a.autoReload.getD false }]))

/-- A configuration of scripts. -/
def addAll (l : List Script) : List Arg → C (Option (List Script))
  | [] => .ok (some l)
  | a :: as => do
    let r ← addScript l a
    match r with
    | none => .ok none
    | some l' => addAll l' as

/-- Where a chunk is read from. -/
inductive Source where
  | file (f : Name)
  | stdin
deriving Repr, DecidableEq

/-- `_initialize_script`, `src/modules/daxlua/scripts.c:471-484`: `luaL_loadfile` of NULL reads the standard input, for every script. -/
def source (s : Script) : Source :=
  match s.filename with
  | some f => .file f
  | none => .stdin

/-- The scripts that an interval thread runs, `_start_interval_thread`, `src/modules/daxlua/threads.c:158-207`. -/
def threadScripts (l : List Script) (thread : Name) : List Script := l.filter fun s => s.thread == some thread

/-! ## Setting up the triggers -/

/-- A conversion of a number to an integer type of `n` bytes, undefined outside of its range; stored in the union, which was `u`. -/
def cast (n : Nat) (signed : Bool) (v : Int) (u : List Byte) : C (List Byte) :=
  if (if signed then -(2 ^ (8 * n - 1) : Int) ≤ v ∧ v < 2 ^ (8 * n - 1) else 0 ≤ v ∧ v < 2 ^ (8 * n)) then .ok (intLE n v ++ u.drop n) else .ub "conversion out of range"

/-- `_convert_lua_number`, `src/modules/daxlua/threads.c:343-384`.  The bytes of a `float` and a `double` are inputs. -/
def convert (flt dbl : Int → List Byte) (type : Nat) (v : Int) (u : List Byte) : C (List Byte) :=
  if type = DAX_BYTE then cast 1 false v u
  else if type = DAX_SINT ∨ type = DAX_CHAR then cast 1 true v u
  else if type = DAX_UINT ∨ type = DAX_WORD then cast 2 false v u
  else if type = DAX_INT then cast 2 true v u
  else if type = DAX_UDINT ∨ type = DAX_DWORD ∨ type = DAX_TIME then cast 4 false v u
  else if type = DAX_DINT then cast 4 true v u
  else if type = DAX_ULINT ∨ type = DAX_LWORD then cast 8 false v u
  else if type = DAX_LINT then cast 8 true v u
  else if type = DAX_REAL then .ok (flt v ++ u.drop 4)
  else if type = DAX_LREAL then .ok (dbl v)
  else .ok (intLE 8 0)

/-- What a trigger does. -/
inductive Effect where
  | run
  | enable
  | disable
deriving Repr, DecidableEq

/-- An event that was added: its tag and count, its type, the value, and which script it affects how. -/
structure Event where
  tag : Name
  count : Int
  type : Int
  value : List Byte
  script : Nat
  effect : Effect
deriving Repr, DecidableEq

/-- A trigger that is to be set up: `size` is `handle.size`, `added` counts the events that the server added for it. -/
structure Slot where
  trig : Trigger
  script : Nat
  effect : Effect
  size : Nat := 0
  added : List Event := []
deriving Repr, DecidableEq

/-- What the library answers for a trigger in a round: to `dax_tag_handle` the size and type of the tag, or an error, after which the size is zero (`src/lib/libcdt.c:749-762`); to `dax_event_add` whether it succeeds. -/
structure Ans where
  handle : Option (Nat × Nat)
  added : Bool
deriving Repr, DecidableEq

/-- The part of `_set_trigger_events` for one trigger, `src/modules/daxlua/threads.c:412-429`, also `:434-447` and `:448-461`; and whether it counts as failed. -/
def setOne (flt dbl : Int → List Byte) (u : List Byte) (s : Slot) (a : Ans) : C (Slot × Bool) :=
  if s.size = 0 then
    match a.handle with
    | none => .ok (s, true)
    | some (size, type) => do
      let v ← convert flt dbl type s.trig.value u
      if a.added then .ok ({ s with size := size, added := s.added ++ [⟨s.trig.tag, s.trig.count, s.trig.type, v, s.script, s.effect⟩] }, false)
      else .ok ({ s with size := size }, true)
  else .ok (s, false)

/-- One round of `_set_trigger_events`, `src/modules/daxlua/threads.c:405-462`; and whether one failed.  `ans` are the answers by place. -/
def round (flt dbl : Int → List Byte) (u : List Byte) (ans : Nat → Ans) : Nat → List Slot → C (List Slot × Bool)
  | _, [] => .ok ([], false)
  | n, s :: ss => do
    let r ← setOne flt dbl u s (ans n)
    let rs ← round flt dbl u ans (n + 1) ss
    .ok (r.1 :: rs.1, r.2 || rs.2)

/-- The first `k` rounds, `src/modules/daxlua/threads.c:404-466`; and whether the loop has ended, with the message that all events were created. -/
def rounds (flt dbl : Int → List Byte) (u : List Byte) (ans : Nat → Nat → Ans) : Nat → List Slot → C (List Slot × Bool)
  | 0, l => .ok (l, false)
  | k + 1, l => do
    let r ← rounds flt dbl u ans k l
    if r.2 then .ok r
    else do
      let r' ← round flt dbl u (ans k) 0 r.1
      .ok (r'.1, !r'.2)

/-- The triggers of a script, by its place. -/
def slotsOf (n : Nat) (s : Script) : List Slot :=
  (s.run.map fun t => ({ trig := t, script := n, effect := .run } : Slot)).toList ++ (s.enable.map fun t => ({ trig := t, script := n, effect := .enable } : Slot)).toList ++
    (s.disable.map fun t => ({ trig := t, script := n, effect := .disable } : Slot)).toList

/-- The triggers of all scripts, from place `n` on. -/
def slots : Nat → List Script → List Slot
  | _, [] => []
  | n, s :: ss => slotsOf n s ++ slots (n + 1) ss

end Dax.LuaConf
