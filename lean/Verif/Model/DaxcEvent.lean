import Verif.Model.Wire
import Verif.Model.LibFunc
/-!
# Events of the command-line client: `src/modules/daxc/daxc_event.c`

The table of events, values of events, and what is printed when one arrives.
-/
set_option autoImplicit false
namespace Dax.DaxcEvent
open Conv

/-- `MAX_EVENTS`, `src/modules/daxc/daxc.h:32`. -/
def MAX_EVENTS : Nat := 64

/-- `struct event_item`, `src/modules/daxc/daxc_event.c:27-30`, with the members of `dax_id`. -/
structure Slot where
  used : Bool
  index : Int
  id : Int
deriving Repr, DecidableEq

/-- The table at the start, `src/modules/daxc/daxc_event.c:31`: static memory is zero. -/
def table : List Slot := List.replicate MAX_EVENTS ⟨false, 0, 0⟩

/-- `_event_callback`, `src/modules/daxc/daxc_event.c:33-50`: the number that is printed; none for the message that the event is bad. -/
def callback (tab : List Slot) (index id : Int) : Option Nat := (tab.findIdx? fun s => s.index == index && s.id == id).map (· + 1)

/-- Bytes stored at the begin of the union. -/
def store (n : Nat) (v : Int) (u : List Byte) : List Byte := intLE n v ++ u.drop n

/-- `_convert_data_str`, `src/modules/daxc/daxc_event.c:52-95`: the eight bytes of the union, which were `u` before.  Narrowing what `strtod` gives is taken to be `strtof`, what `strtold` gives to be
`strtod`. -/
def convert (e : TextEnv) (type : Nat) (t : Name) (u : List Byte) : List Byte :=
  if type = DAX_BYTE then store 1 (strtol0 t) u
  else if type = DAX_SINT ∨ type = DAX_CHAR then store 1 (strtol0 t) u
  else if type = DAX_UINT ∨ type = DAX_WORD then store 2 (strtoul0 t) u
  else if type = DAX_INT then store 2 (strtol0 t) u
  else if type = DAX_UDINT ∨ type = DAX_DWORD ∨ type = DAX_TIME then store 4 (strtoul0 t) u
  else if type = DAX_DINT then store 4 (strtol0 t) u
  else if type = DAX_ULINT ∨ type = DAX_LWORD then store 8 (strtoul0 t) u
  else if type = DAX_LINT then store 8 (strtol0 t) u
  else if type = DAX_REAL then e.strtof t ++ u.drop 4
  else if type = DAX_LREAL then e.strtod t
  else store 8 0 u

/-- `event_add`, `src/modules/daxc/daxc_event.c:98-145`, once type and handle are found: the table, the call of the library and the number printed.  `value` is the fourth word, `u` the union before it is
set; `ans` is the answer to the call, the identifier or an error.  The table is left alone when the call fails; that the library may have stored the identifier before its own table is full is not modelled. -/
def eventAdd (e : TextEnv) (tab : List Slot) (h : Handle) (etype : Int) (value : Option Name) (u : List Byte) (ans : Except Int Int) : List Slot × Option Wire.Call × Option Nat :=
  let n := tab.findIdx fun s => !s.used
  if n = MAX_EVENTS then (tab, none, none)
  else
    let call := Wire.Call.evAdd h etype (value.map fun t => convert e h.type t u)
    match ans with
    | .error _ => (tab, some call, none)
    | .ok id => (tab.set n ⟨true, h.index, id⟩, some call, some (n + 1))

/-- `event_del`, `src/modules/daxc/daxc_event.c:147-161`: the event whose deletion is asked for, none if the word is missing or refused. -/
def eventDel (tab : List Slot) (w : Option Name) : C (Option (Int × Int)) :=
  match w with
  | none => .ok none
  | some t =>
    if strtol0 t = -9223372036854775808 then .ub "overflow"
    else
      let index := i32 (strtol0 t - 1)
      if index < 0 ∨ index > MAX_EVENTS then .ok none
      else
        match tab[index.toNat]? with
        | none => .ub "read outside block"
        | some s => .ok (some (s.index, s.id))

/-- A command of the user: an addition that is answered in some way, or a deletion. -/
inductive Cmd where
  | add (h : Handle) (etype : Int) (value : Option Name) (u : List Byte) (ans : Except Int Int)
  | del (w : Option Name)

/-- Any number of commands: the table, and the number printed for each addition with its identifier. -/
def run (e : TextEnv) : List Slot → List Cmd → List Slot × List (Nat × Int × Int)
  | tab, [] => (tab, [])
  | tab, .add h ty v u ans :: cs =>
    let r := eventAdd e tab h ty v u ans
    let q := run e r.1 cs
    match r.2.2, ans with
    | some n, .ok id => (q.1, (n, h.index, id) :: q.2)
    | _, _ => q
  | tab, .del _ :: cs => run e tab cs

end Dax.DaxcEvent
