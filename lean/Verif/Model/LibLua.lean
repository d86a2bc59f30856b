import Verif.Model.LibPath
import Verif.Model.Events
/-!
# Tag values in Lua: `src/lib/lua/libdaxlua.c`

The conversion between the bytes of a tag and Lua values.  Lua is version 5.3 or later (`CMakeLists.txt:66-67`): `lua_Integer` has 64 bits,
`lua_Number` is an IEEE double.  Tables are lists of keys and values, the latest first; only string and integer keys can be met here.
The type cache and its requests are those of `Model/LibCdt.lean`, the iteration over the members that of `Model/LibPath.lean`: its list of members is made
before the calls of the callback, which run between its steps in the code; the callbacks change nothing the iteration uses but the cache.  Pointers into `data` that are
not aligned are used like others.
-/
set_option autoImplicit false
namespace Dax.Lua
open LibPath

/-- A key of a table. -/
inductive Key where
  | int (i : Int)
  | str (n : Name)
deriving Repr, DecidableEq

/-- A Lua value.  `other` stands for functions, userdata and threads. -/
inductive Val where
  | nil
  | bool (b : Bool)
  | int (i : Int)
  | num (d : BitVec 64)
  | str (s : List Byte)
  | tbl (l : List (Key × Val))
  | other

/-- `lua_rawget`/`lua_rawgeti` in a table. -/
def get : List (Key × Val) → Key → Val
  | [], _ => .nil
  | (k', v) :: l, k => if k' = k then v else get l k

/-! ## Floating point numbers -/

/-- The bits of the double nearest to a natural number below 2^64, ties to even (the conversion of C). -/
def dblOfNat (n : Nat) : Nat :=
  if n = 0 then 0
  else
    let e := n.log2
    if e ≤ 52 then (1023 + e) * 2 ^ 52 + (n - 2 ^ e) * 2 ^ (52 - e)
    else
      let k := e - 52
      let q := n / 2 ^ k
      let r := n % 2 ^ k
      let q := if r > 2 ^ (k - 1) ∨ (r = 2 ^ (k - 1) ∧ q % 2 = 1) then q + 1 else q
      (1023 + e) * 2 ^ 52 + (q - 2 ^ 52)

/-- Conversion of an integer to a double. -/
def dblOfInt (i : Int) : BitVec 64 :=
  if i < 0 then BitVec.ofNat 64 (2 ^ 63 + dblOfNat i.natAbs) else BitVec.ofNat 64 (dblOfNat i.natAbs)

/-- The integer part of a floating point number with `mb` bits of mantissa and `eb` of exponent; nothing for infinities and NaNs.  The second
component says whether there is no fraction. -/
def fltTrunc (mb eb x : Nat) : Option (Int × Bool) :=
  let ex := x / 2 ^ mb % 2 ^ eb
  if ex = 2 ^ eb - 1 then none
  else
    let m := x % 2 ^ mb + (if ex = 0 then 0 else 2 ^ mb)
    let ex := max ex 1
    let bias := 2 ^ (eb - 1) - 1 + mb
    let p := if bias ≤ ex then (m * 2 ^ (ex - bias), true) else (m / 2 ^ (bias - ex), decide (m % 2 ^ (bias - ex) = 0))
    some (if x / 2 ^ (mb + eb) % 2 = 1 then -(p.1 : Int) else p.1, p.2)

/-- What is not modelled of Lua and of the floating point unit. -/
structure LuaEnv where
  /-- `luaO_str2num`: the number (`int` or `num`) a string stands for. -/
  strNum : List Byte → Option Val
  /-- Conversion of a double to a float. -/
  toSingle : BitVec 64 → BitVec 32

/-- The number a value stands for: numbers and strings that read as one. -/
def asNumber (env : LuaEnv) : Val → Option Val
  | .int i => some (.int i)
  | .num d => some (.num d)
  | .str s => env.strNum s
  | _ => none

/-- `lua_tonumber`: 0.0 for what is no number. -/
def toNumber (env : LuaEnv) (v : Val) : BitVec 64 :=
  match asNumber env v with
  | some (.int i) => dblOfInt i
  | some (.num d) => d
  | _ => 0

/-- `lua_tointeger`: 0 for what is no number or has no integer value in the range. -/
def toInteger (env : LuaEnv) (v : Val) : Int :=
  match asNumber env v with
  | some (.int i) => i
  | some (.num d) =>
    match fltTrunc 52 11 d.toNat with
    | some (i, true) => if -9223372036854775808 ≤ i ∧ i < 9223372036854775808 then i else 0
    | _ => 0
  | _ => 0

/-- `lua_toboolean`. -/
def toBoolean : Val → Bool
  | .nil => false
  | .bool b => b
  | _ => true

/-- Is it nil? -/
def isNil : Val → Bool
  | .nil => true
  | _ => false

/-- Conversion of a floating point number to an integer type with the given range: undefined if the integer part is not in it. -/
def castFlt (t : Option (Int × Bool)) (lo hi : Int) : C Int :=
  match t with
  | some (i, _) => if lo ≤ i ∧ i ≤ hi then .ok i else .ub "floating point number out of range"
  | none => .ub "floating point number out of range"

/-! ## From the tag to Lua -/

/-- `_read_to_stack`, `src/lib/lua/libdaxlua.c:40-82`: the value pushed for the bytes at `off`.  (With another type nothing is pushed; what then becomes of the
stack is not modelled.) -/
def readToStack (type : Nat) (data : List Byte) (off : Int) : C Val :=
  if type = DAX_BYTE then do let b ← rd data off 1; .ok (.int (leNat b))
  else if type = DAX_SINT ∨ type = DAX_CHAR then do let b ← rd data off 1; .ok (.int (leInt b))
  else if type = DAX_WORD ∨ type = DAX_UINT then do let b ← rd data off 2; .ok (.int (leNat b))
  else if type = DAX_INT then do let b ← rd data off 2; .ok (.int (leInt b))
  else if type = DAX_DWORD ∨ type = DAX_UDINT then do let b ← rd data off 4; .ok (.int (leNat b))
  else if type = DAX_DINT then do let b ← rd data off 4; .ok (.int (leInt b))
  else if type = DAX_REAL then do
    let b ← rd data off 4
    let i ← castFlt (fltTrunc 23 8 (leNat b)) (-9223372036854775808) 9223372036854775807
    .ok (.num (dblOfInt i))
  else if type = DAX_LWORD ∨ type = DAX_ULINT then do let b ← rd data off 8; .ok (.num (dblOfInt (leInt b)))
  else if type = DAX_TIME ∨ type = DAX_LINT then do let b ← rd data off 8; .ok (.int (leInt b))
  else if type = DAX_LREAL then do let b ← rd data off 8; .ok (.num (BitVec.ofNat 64 (leNat b)))
  else .ub "nothing pushed"

/-- The test of one bit, `src/lib/lua/libdaxlua.c:104-109,113-117`; `bit` is counted from byte `off`. -/
def readBit (data : List Byte) (off bit : Int) : C Val := do
  let b ← rd data (off + bit.tdiv 8) 1
  .ok (.bool ((b.headD 0).getLsbD (bit.tmod 8).toNat))

/-- The loops over the elements of an array of base type, `src/lib/lua/libdaxlua.c:103-111,126-129`: `k` rounds from element `n` on, each with
the value `f n`, stored at `n + 1`. -/
def readArray (f : Nat → C Val) : Nat → Nat → List (Key × Val) → C (List (Key × Val))
  | 0, _, l => .ok l
  | k + 1, n, l => do
    let v ← f n
    readArray f k (n + 1) ((.int (n + 1), v) :: l)

/-- `_push_base_datatype` and `_push_string`, `src/lib/lua/libdaxlua.c:83-135`: the value of `count` elements; `off` is where `data` points to. -/
def pushBase (type count : Nat) (bit : Int) (data : List Byte) (off : Int) : C Val :=
  if type = DAX_BOOL then
    if count > 1 then do
      let l ← readArray (fun n => readBit data off (n + bit)) count 0 []
      .ok (.tbl l)
    else readBit data off bit
  else if count > 1 then
    if type = DAX_CHAR then do
      let b ← rd data off count
      .ok (.str (cstr b))
    else do
      let l ← readArray (fun n => readToStack type data (off + (typeBits type / 8 * n : Nat))) count 0 []
      .ok (.tbl l)
  else readToStack type data off

/-- Conversion of an element of compound type: `rec c t off` is the table made of the element at `off`. -/
abbrev ReadRec := TypeCache → Nat → Int → C (TypeCache × List (Key × Val))

/-- The loop over the elements of an array of compound type, `src/lib/lua/libdaxlua.c:157-163,195-201`: `k` rounds from element `n` on. -/
def readElems (rec : ReadRec) (s : Server) (fd : Int) (t : Nat) (off byte : Int) : Nat → Nat → TypeCache → List (Key × Val) → C (TypeCache × List (Key × Val))
  | 0, _, c, l => .ok (c, l)
  | k + 1, n, c, l => do
    let (c, size) ← ctypeSize s fd c t
    let x ← mulI32 n size
    let y ← addI32 byte x
    let (c, v) ← rec c t (off + y)
    readElems rec s fd t off byte k (n + 1) c ((.int (n + 1), .tbl v) :: l)

/-- The value of a member in `_read_callback`, `src/lib/lua/libdaxlua.c:150-170`. -/
def readValue (rec : ReadRec) (s : Server) (fd : Int) (data : List Byte) (off : Int) (c : TypeCache) (m : Iter) : C (TypeCache × Val) :=
  if isCustom m.type then
    if m.count > 1 then do
      let (c, l) ← readElems rec s fd m.type off m.byte m.count 0 c []
      .ok (c, .tbl l)
    else do
      let (c, l) ← rec c m.type (off + m.byte)
      .ok (c, .tbl l)
  else do
    let v ← pushBase m.type m.count m.bit data (off + m.byte)
    .ok (c, v)

/-- `_read_callback` for one member after another, `src/lib/lua/libdaxlua.c:140-172`. -/
def readMembers (rec : ReadRec) (s : Server) (fd : Int) (data : List Byte) (off : Int) : List Iter → TypeCache → List (Key × Val) → C (TypeCache × List (Key × Val))
  | [], c, l => .ok (c, l)
  | m :: ms, c, l => do
    let (c, v) ← readValue rec s fd data off c m
    readMembers rec s fd data off ms c ((.str m.name, v) :: l)

/-- `dax_cdt_iter(…, _read_callback)` on an element of type `t` at `off`; `fuel` bounds the nesting. -/
def readStruct (s : Server) (fd : Int) (data : List Byte) : Nat → ReadRec
  | 0, _, _, _ => .ub "unbounded recursion"
  | fuel + 1, c, t, off => do
    let (c, _, its) ← cdtIter s fd c t
    readMembers (readStruct s fd data fuel) s fd data off its c []

/-- `daxlua_dax_to_lua`, `src/lib/lua/libdaxlua.c:179-212`. -/
def daxToLua (s : Server) (fd : Int) (c : TypeCache) (type count : Nat) (data : List Byte) : C (TypeCache × Val) :=
  if isCustom type then
    if count > 1 then do
      let (c, l) ← readElems (readStruct s fd data (s.cdts.length + 1)) s fd type 0 0 count 0 c []
      .ok (c, .tbl l)
    else do
      let (c, l) ← readStruct s fd data (s.cdts.length + 1) c type 0
      .ok (c, .tbl l)
  else do
    let v ← pushBase type count 0 data 0
    .ok (c, v)

/-! ## From Lua to the tag -/

/-- The buffers and the Lua stack, top first. -/
structure W where
  data : List Byte
  mask : List Byte
  stack : List Val

/-- The value at the top of the stack. -/
def top (w : W) : C Val :=
  match w.stack with
  | v :: _ => .ok v
  | [] => .ub "empty stack"

/-- `lua_pop(L, 1)`. -/
def pop (w : W) : C W :=
  match w.stack with
  | _ :: r => .ok { w with stack := r }
  | [] => .ub "empty stack"

/-- A push. -/
def push (v : Val) (w : W) : W := { w with stack := v :: w.stack }

/-- `lua_rawget`/`lua_rawgeti` with the table at the top of the stack; the value is pushed.  Lua does not check that it is a table. -/
def rawget (k : Key) (w : W) : C W := do
  let v ← top w
  match v with
  | .tbl l => .ok (push (get l k) w)
  | _ => .ub "rawget on a value that is no table"

/-- Store `d` and set the mask for it. -/
def store (w : W) (off : Int) (d : List Byte) : C W := do
  let data ← wr w.data off d
  let mask ← wr w.mask off (List.replicate d.length 0xFF)
  .ok { w with data := data, mask := mask }

/-- The `n` bytes of an integer, two's complement. -/
def intBytes (n : Nat) (i : Int) : List Byte := toLE n (i % (256 ^ n : Nat)).toNat

/-- `_write_from_stack`, `src/lib/lua/libdaxlua.c:218-273`: the value at the top of the stack becomes element `index` of the array at `off`.  TIME is written like DWORD,
32 bits wide.  Nothing happens with another type. -/
def writeFromStack (env : LuaEnv) (w : W) (type : Nat) (off : Int) (index : Nat) : C W := do
  let v ← top w
  let conv := fun lo hi => castFlt (fltTrunc 52 11 (toNumber env v).toNat) lo hi
  if type = DAX_BYTE ∨ type = DAX_SINT ∨ type = DAX_CHAR then store w (off + index) (intBytes 1 ((toInteger env v).tmod 256))
  else if type = DAX_WORD ∨ type = DAX_UINT then do let x ← conv 0 65535; store w (off + 2 * index) (intBytes 2 x)
  else if type = DAX_INT then do let x ← conv (-32768) 32767; store w (off + 2 * index) (intBytes 2 x)
  else if type = DAX_DWORD ∨ type = DAX_UDINT ∨ type = DAX_TIME then do let x ← conv 0 4294967295; store w (off + 4 * index) (intBytes 4 x)
  else if type = DAX_DINT then do let x ← conv (-2147483648) 2147483647; store w (off + 4 * index) (intBytes 4 x)
  else if type = DAX_REAL then store w (off + 4 * index) (toLE 4 (env.toSingle (toNumber env v)).toNat)
  else if type = DAX_LWORD ∨ type = DAX_ULINT then do let x ← conv 0 18446744073709551615; store w (off + 8 * index) (intBytes 8 x)
  else if type = DAX_LINT then do let x ← conv (-9223372036854775808) 9223372036854775807; store w (off + 8 * index) (intBytes 8 x)
  else if type = DAX_LREAL then store w (off + 8 * index) (toLE 8 (toNumber env v).toNat)
  else .ok w

/-- One bit of a byte set to `b`. -/
def putBit (x : Byte) (i : Nat) (b : Bool) : Byte := if b then x ||| (1#8 <<< i) else x &&& ~~~(1#8 <<< i)

/-- A BOOL, `src/lib/lua/libdaxlua.c:303-309,320-326`: the bit in the data becomes the truth of the value at the top of the stack, the bit in the mask is set. -/
def writeBit (w : W) (off bit : Int) : C W := do
  let v ← top w
  let d ← rd w.data (off + bit.tdiv 8) 1
  let data ← wr w.data (off + bit.tdiv 8) [putBit (d.headD 0) (bit.tmod 8).toNat (toBoolean v)]
  let m ← rd w.mask (off + bit.tdiv 8) 1
  let mask ← wr w.mask (off + bit.tdiv 8) [putBit (m.headD 0) (bit.tmod 8).toNat true]
  .ok { w with data := data, mask := mask }

/-- The value at the top of the stack as element `n` of the array at `off`, `src/lib/lua/libdaxlua.c:301-313,319-329`. -/
def writeElem (env : LuaEnv) (w : W) (type : Nat) (bit off : Int) (n : Nat) : C W :=
  if type = DAX_BOOL then writeBit w off (n + bit) else writeFromStack env w type off n

/-- The element at the top of the stack unless it is nil. -/
def writeSome (env : LuaEnv) (w : W) (type : Nat) (bit off : Int) (n : Nat) : C W := do
  let v ← top w
  if isNil v then .ok w else writeElem env w type bit off n

/-- The loop of `_pop_base_datatype`, `src/lib/lua/libdaxlua.c:298-316`: `k` rounds from element `n` on. -/
def writeArray (env : LuaEnv) (type : Nat) (bit off : Int) : Nat → Nat → W → C W
  | 0, _, w => .ok w
  | k + 1, n, w => do
    let w ← rawget (.int (n + 1)) w
    let w ← writeSome env w type bit off n
    let w ← pop w
    writeArray env type bit off k (n + 1) w

/-- The message pushed with `lua_pushfstring`; its text does not matter here. -/
def message : Val := .str []

/-- A string for an array, `src/lib/lua/libdaxlua.c:287-289`: its bytes as far as there is room; the mask is set for `count` bytes. -/
def writeString (w : W) (count : Nat) (off : Int) (t : List Byte) : C W := do
  let data ← wr w.data off (t.take count)
  let mask ← wr w.mask off (List.replicate count 0xFF)
  .ok { w with data := data, mask := mask }

/-- `_pop_base_datatype`, `src/lib/lua/libdaxlua.c:278-332`; nothing is popped. -/
def popBase (env : LuaEnv) (w : W) (type count : Nat) (bit off : Int) : C (W × Int) :=
  if count > 1 then do
    let v ← top w
    match v with
    | .str t => do
      let w ← writeString w count off t
      .ok (w, 0)
    | .tbl _ => do
      let w ← writeArray env type bit off count 0 w
      .ok (w, 0)
    | _ => .ok (push message w, -1)
  else do
    let w ← writeElem env w type bit off 0
    .ok (w, 0)

/-- An element of compound type: `rec c w t off` takes it from the table at the top of the stack; the result has the error flag. -/
abbrev WriteRec := TypeCache → W → Nat → Int → C (TypeCache × W × Int)

/-- The value at the top of the stack, if it is a table, for an element of compound type, `src/lib/lua/libdaxlua.c:363-371,381-388,438-445,454-460`; the last component says that it was
something else. -/
def writeTable (rec : WriteRec) (c : TypeCache) (w : W) (t : Nat) (off : Int) : C (TypeCache × W × Int × Bool) := do
  let v ← top w
  match v with
  | .nil => .ok (c, w, 0, false)
  | .tbl _ => do
    let (c, w, err) ← rec c w t off
    .ok (c, w, err, false)
  | _ => .ok (c, w, 0, true)

/-- The loop over the elements of an array of compound type, `src/lib/lua/libdaxlua.c:353-377,429-450`: `k` rounds from element `n` on.  On an error
the table stays on the stack and, if the value is not a table, there is a message above it. -/
def writeElems (rec : WriteRec) (s : Server) (fd : Int) (t : Nat) (off byte : Int) : Nat → Nat → TypeCache → W → C (TypeCache × W × Int)
  | 0, _, c, w => .ok (c, w, 0)
  | k + 1, n, c, w => do
    let (c, size) ← ctypeSize s fd c t
    let x ← mulI32 n size
    let y ← addI32 byte x
    let v ← top w
    match v with
    | .tbl _ => do
      let w ← rawget (.int (n + 1)) w
      let (c, w, err, bad) ← writeTable rec c w t (off + y)
      let w ← pop w
      if bad then .ok (c, push message w, -1)
      else if err ≠ 0 then .ok (c, w, err)
      else writeElems rec s fd t off byte k (n + 1) c w
    | _ => .ok (c, push message w, -1)

/-- `_write_callback`, `src/lib/lua/libdaxlua.c:337-406`: the result has the error of this member, 0 for none. -/
def writeMember (env : LuaEnv) (rec : WriteRec) (s : Server) (fd : Int) (off : Int) (c : TypeCache) (w : W) (m : Iter) : C (TypeCache × W × Int) := do
  let w ← rawget (.str m.name) w
  if isCustom m.type then
    if m.count > 1 then do
      let (c, w, err) ← writeElems rec s fd m.type off m.byte m.count 0 c w
      if err ≠ 0 then .ok (c, w, err)
      else do
        let w ← pop w
        .ok (c, w, 0)
    else do
      let (c, w, err, bad) ← writeTable rec c w m.type (off + m.byte)
      if bad then .ok (c, push message w, -1)
      else if err ≠ 0 then .ok (c, w, err)
      else do
        let w ← pop w
        .ok (c, w, 0)
  else do
    let v ← top w
    if isNil v then do
      let w ← pop w
      .ok (c, w, 0)
    else do
      let (w, err) ← popBase env w m.type m.count m.bit (off + m.byte)
      let w ← pop w
      .ok (c, w, err)

/-- `_write_callback` for one member after another; `err` is the error flag in the user data.  The iteration goes on after an error. -/
def writeMembers (env : LuaEnv) (rec : WriteRec) (s : Server) (fd : Int) (off : Int) : List Iter → TypeCache → W → Int → C (TypeCache × W × Int)
  | [], c, w, err => .ok (c, w, err)
  | m :: ms, c, w, err => do
    let (c, w, e) ← writeMember env rec s fd off c w m
    writeMembers env rec s fd off ms c w (if e ≠ 0 then e else err)

/-- `dax_cdt_iter(…, _write_callback)` on an element of type `t` at `off`; `fuel` bounds the nesting. -/
def writeStruct (env : LuaEnv) (s : Server) (fd : Int) : Nat → WriteRec
  | 0, _, _, _, _ => .ub "unbounded recursion"
  | fuel + 1, c, w, t, off => do
    let (c, _, its) ← cdtIter s fd c t
    writeMembers env (writeStruct env s fd fuel) s fd off its c w 0

/-- `daxlua_lua_to_dax`, `src/lib/lua/libdaxlua.c:418-473`, with the value at the top of the stack. -/
def luaToDax (env : LuaEnv) (s : Server) (fd : Int) (c : TypeCache) (type count : Nat) (w : W) : C (TypeCache × W × Int) :=
  if isCustom type then
    if count > 1 then writeElems (writeStruct env s fd (s.cdts.length + 1)) s fd type 0 0 count 0 c w
    else do
      let (c, w, err, bad) ← writeTable (writeStruct env s fd (s.cdts.length + 1)) c w type 0
      .ok (c, if bad then push message w else w, if bad then -1 else err)
  else do
    let (w, err) ← popBase env w type count 0 0
    .ok (c, w, err)

end Dax.Lua
