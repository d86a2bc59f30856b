import Verif.Model.MasterConf
/-!
# The joystick module: `src/modules/examples/joystick`

Floating point numbers are integers here: the sums and products of small integers are the same in both.
-/
set_option autoImplicit false
namespace Dax.Joystick
open Dax.MasterConf (Field)

/-- `axis_t`, `src/modules/examples/joystick/daxjoystick.h:29-34`, with the index of its handle. -/
structure Axis where
  tag : Option Name := none
  handle : Nat := 0
  offset : Int := 0
  scale : Int := 0
deriving Repr, DecidableEq

/-- `button_t`, `src/modules/examples/joystick/daxjoystick.h:36-39`. -/
structure Button where
  tag : Option Name := none
  handle : Nat := 0
deriving Repr, DecidableEq

/-- `axis_list` and `button_list`, `src/modules/examples/joystick/daxjoystick.c:34-35`. -/
structure Lists where
  axes : Nat → Axis
  buttons : Nat → Button

/-- The calls of a configuration; numbers are what `lua_tointegerx` and `lua_tonumberx` give, none if it is no number. -/
inductive Call where
  | axis (index : Option Int) (tag : Field) (offset scale : Option Int)
  | button (index : Option Int) (tag : Field)
deriving Repr, DecidableEq

/-- A number in an `int`. -/
def int32 (v : Int) : Int := (v + 2147483648) % 4294967296 - 2147483648

/-- One place of an array is changed. -/
def put {α : Type} (f : Nat → α) (n : Nat) (a : α) : Nat → α := fun x => if x = n then a else f x

/-- The index, `src/modules/examples/joystick/jsopts.c:36-39,70-73`. -/
def index : Option Int → Option Nat
  | none => none
  | some i => if i < 0 ∨ i > 255 then none else some i.toNat

/-- `_set_axis` and `_set_button`, `src/modules/examples/joystick/jsopts.c:28-85`: none is an error. -/
def set (l : Lists) : Call → Option Lists
  | .axis i t o s =>
    match index i, t.str, o, s with
    | some n, some t, some o, some s => some { l with axes := put l.axes n { l.axes n with tag := some t, offset := int32 o, scale := s } }
    | _, _, _, _ => none
  | .button i t =>
    match index i, t.str with
    | some n, some t => some { l with buttons := put l.buttons n { l.buttons n with tag := some t } }
    | _, _ => none

/-- The calls of a configuration file; an error ends the module. -/
def setAll (l : Lists) : List Call → Option Lists
  | [] => some l
  | c :: cs =>
    match set l c with
    | none => none
    | some l => setAll l cs

/-- The tags are added, `src/modules/examples/joystick/daxjoystick.c:122-139`: `real` and `bool` are the indexes that the server gives for the names, none if it refuses. -/
def addTags (real bool : Name → Option Nat) (l : Lists) : Lists :=
  { axes := fun n => { l.axes n with handle := ((l.axes n).tag.bind real).getD 0 }
    buttons := fun n => { l.buttons n with handle := ((l.buttons n).tag.bind bool).getD 0 } }

/-- `struct js_event` of the system: the type, the number (a byte), the value (16 bits with sign). -/
structure Event where
  type : Nat
  number : Nat
  value : Int
deriving Repr, DecidableEq

/-- What is written to a tag. -/
inductive Write where
  | bool (handle : Nat) (b : Byte)
  | real (handle : Nat) (v : Int)
deriving Repr, DecidableEq

/-- One event, `main`, `src/modules/examples/joystick/daxjoystick.c:156-173`.  A BOOL is taken from the first byte of the value. -/
def event (l : Lists) (e : Event) : C (Option Write) :=
  if e.type = 1 then
    .ok (if (l.buttons e.number).handle ≠ 0 then some (.bool (l.buttons e.number).handle (BitVec.ofInt 8 e.value)) else none)
  else if e.type = 2 then
    if (l.axes e.number).handle ≠ 0 then
      if e.value + (l.axes e.number).offset < -2147483648 ∨ e.value + (l.axes e.number).offset > 2147483647 then .ub "signed overflow"
      else .ok (some (.real (l.axes e.number).handle ((e.value + (l.axes e.number).offset) + (l.axes e.number).scale)))
    else .ok none
  else .ok none

/-- The lists at the start of the program: all zero. -/
def start : Lists := ⟨fun _ => {}, fun _ => {}⟩

end Dax.Joystick
