import Verif.Model.Plctag
/-!
# Configuration of the tags of the controller: `src/modules/plctag/plcopt.c`

Lua is not code of the project: the argument of `add_plctag` is what the functions of Lua give for its fields.  Left out: failures of allocation other than for a size that is negative, memory that is
lost when the function ends with an error.
-/
set_option autoImplicit false
namespace Dax.Plc

/-- A field that is read as text: absent, text or a number, anything else. -/
inductive Field where
  | nil
  | text (s : Name)
  | other
deriving Repr, DecidableEq

/-- The argument of `add_plctag`: the numbers are what `lua_tointeger` gives, 0 for a value that is none.  The map is by the places of the table, from 0 here; none if the field is no table. -/
structure Arg where
  daxtag : Field
  plctag : Field
  count : Int := 0
  elem : Int := 0
  map : Option (Nat → Option Int) := none
  readUpdate : Int := 0
  writeUpdate : Int := 0

/-- What `_add_plctag` sets in a `struct tagdef`, `src/modules/plctag/plctag.h:31-43`. -/
structure Def where
  daxtag : Name
  plctag : Name
  count : Int
  elem : Int
  map : Option (List Nat)
  readUpdate : Int
  writeUpdate : Int
deriving Repr, DecidableEq

/-- The loop over the map, `src/modules/plctag/plcopt.c:79-90`, for the places from `n` on; none for the error. -/
def byteMap (f : Nat → Option Int) (elem : Int) : Nat → Nat → Option (List Nat)
  | _, 0 => some []
  | n, k + 1 =>
    match f n with
    | none => (byteMap f elem (n + 1) k).map fun l => n % 65536 :: l
    | some v =>
      let b := (v % 65536).toNat
      if (b : Int) ≥ elem then none else (byteMap f elem (n + 1) k).map fun l => b :: l

/-- `_add_plctag`, `src/modules/plctag/plcopt.c:29-121`, on the list of tags; none for an error of Lua. -/
def addPlctag (l : List Def) (a : Arg) : C (Option (List Def)) :=
  if a.daxtag = .nil ∨ a.plctag = .nil then .ok none
  else
    let count := if i32 a.count = 0 then 1 else i32 a.count
    let elem := if i32 a.elem = 0 then -1 else i32 a.elem
    let fin (m : Option (List Nat)) : C (Option (List Def)) :=
      match a.daxtag, a.plctag with
      | .text d, .text p => .ok (some ({ daxtag := d, plctag := p, count := count, elem := elem, map := m, readUpdate := i32 a.readUpdate, writeUpdate := i32 a.writeUpdate } :: l))
      | _, _ => .ub "strdup(NULL)"
    match a.map with
    | none => fin none
    | some f =>
      if elem < 0 then .ok none
      else match byteMap f elem 0 elem.toNat with
        | none => .ok none
        | some m => fin (some m)

end Dax.Plc
