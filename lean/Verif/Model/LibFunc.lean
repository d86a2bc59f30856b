import Verif.Model.Text
/-!
# Conversion between values and text: `src/lib/libfunc.c`

Floating point text and calendar dates are parameters (`TextEnv`): what `strtof`, `strtod`
and `sscanf`/`timegm` make of a text is not modelled.
-/
namespace Dax.Conv

/-- The parts of the C library that are not modelled. -/
structure TextEnv where
  /-- the four bytes of `strtof(s)` -/
  strtof : Name → List Byte
  /-- the eight bytes of `strtod(s)` -/
  strtod : Name → List Byte
  /-- milliseconds if `sscanf` finds at least the six fields of a date, see `dateOf` -/
  date : Name → Option Int

/-- Sign and magnitude that `strtol`, `strtoul`, `strtoll`, `strtoull` with base 0 find. -/
def parse0 (s : Name) : Bool × Nat :=
  let s := s.dropWhile isSpace
  let (neg, s) := takeSign s
  let (base, s) := takeBase s
  (neg, digitsVal base 0 s)

/-- `strtoul(s, NULL, 0)` and `strtoull(s, NULL, 0)` (both 64 bits): a magnitude that does not
fit gives the largest value, a minus sign negates modulo 2^64. -/
def strtoul0 (s : Name) : Nat :=
  let (neg, v) := parse0 s
  if v > 18446744073709551615 then 18446744073709551615
  else if neg then (18446744073709551616 - v) % 18446744073709551616
  else v

/-- `errno == ERANGE` after `strtoull(s, NULL, 0)`. -/
def strtoulRange (s : Name) : Bool := (parse0 s).2 > 18446744073709551615

/-- The number `strtoll` reads before saturation. -/
def signed0 (s : Name) : Int := if (parse0 s).1 then -((parse0 s).2 : Int) else (parse0 s).2

/-- `errno == ERANGE` after `strtoll(s, NULL, 0)`. -/
def strtolRange (s : Name) : Bool :=
  signed0 s > 9223372036854775807 || signed0 s < -9223372036854775808

/-- Conversion of an `unsigned long` to `long`. -/
def toLong (n : Nat) : Int :=
  if n < 9223372036854775808 then n else (n : Int) - 18446744073709551616

/-- The `n` bytes of an integer stored in an object of `n` bytes. -/
def intLE (n : Nat) (v : Int) : List Byte := toLE n (v % (256 ^ n : Nat)).toNat

/-- The milliseconds of a date, `src/lib/libfunc.c:259-261,274-277`; the format contains the
letter `T` before the fourth field, so a text without one never has six fields. -/
def dateOf (e : TextEnv) (s : Name) : Option Int := if s.contains 84#8 then e.date s else none

/-- Limit tests and stored value, the pattern of `src/lib/libfunc.c:144-154,163-173,177-187`
and so on: return value and what is stored. -/
def clampTo (v lo hi : Int) : Int × Int :=
  if v < lo then (ERR_UNDERFLOW, lo) else if v > hi then (ERR_OVERFLOW, hi) else (0, v)

/-- Store at an index, in the buffer and, if there is one, all ones in the mask. -/
def put (buff : List Byte) (mask : Option (List Byte)) (n : Nat) (index : Int) (ret : Int)
    (d : List Byte) : C (Int × List Byte × Option (List Byte)) := do
  let b ← wr buff (n * index) d
  match mask with
  | none => .ok (ret, b, none)
  | some m => do
    let m ← wr m (n * index) (List.replicate n 255#8)
    .ok (ret, b, some m)

/-- `BOOL`, `src/lib/libfunc.c:131-141`. -/
def putBit (buff : List Byte) (mask : Option (List Byte)) (index : Int) (v : Bool) :
    C (Int × List Byte × Option (List Byte)) :=
  if index < 0 then .ub "negative shift"
  else do
    let k := index.toNat / 8
    let bit : Byte := BitVec.ofNat 8 (2 ^ (index.toNat % 8))
    match buff[k]? with
    | none => .ub "write outside block"
    | some x =>
      let b := buff.set k (if v then x ||| bit else x &&& ~~~bit)
      match mask with
      | none => .ok (0, b, none)
      | some m =>
        match m[k]? with
        | none => .ub "write outside block"
        | some y => .ok (0, b, some (m.set k (y ||| bit)))

/-- `LINT` and the fallback of `TIME`, `src/lib/libfunc.c:245-256,262-273`. -/
def putLint (instr : Name) (buff : List Byte) (mask : Option (List Byte)) (index : Int) :
    C (Int × List Byte × Option (List Byte)) :=
  put buff mask 8 index
    (if strtolRange instr then (if instr.head? = some 45#8 then ERR_UNDERFLOW else ERR_OVERFLOW)
     else 0)
    (intLE 8 (strtol0 instr))

/-- `SINT` and the fall-through of `CHAR`, `src/lib/libfunc.c:162-175`. -/
def putSint (instr : Name) (buff : List Byte) (mask : Option (List Byte)) (index : Int) :
    C (Int × List Byte × Option (List Byte)) :=
  let r := clampTo (strtol0 instr) (-128) 127
  put buff mask 1 index r.1 (intLE 1 r.2)

/-- `dax_string_to_val`, `src/lib/libfunc.c:121-284`.  A `CHAR` text of one character is the
character; reading `instr[1]` of an empty text is outside the string. -/
def stringToVal (e : TextEnv) (instr : Name) (type : Nat) (buff : List Byte)
    (mask : Option (List Byte)) (index : Int) : C (Int × List Byte × Option (List Byte)) :=
  if type = DAX_BOOL then putBit buff mask index (strtol0 instr != 0)
  else if type = DAX_BYTE then
    let r := clampTo (strtol0 instr) 0 255
    put buff mask 1 index r.1 (intLE 1 r.2)
  else if type = DAX_CHAR then
    match instr with
    | [] => .ub "read outside block"
    | [c] => put buff mask 1 index 0 [c]
    | _ => putSint instr buff mask index
  else if type = DAX_SINT then putSint instr buff mask index
  else if type = DAX_WORD ∨ type = DAX_UINT then
    let r := clampTo (toLong (strtoul0 instr)) 0 65535
    put buff mask 2 index r.1 (intLE 2 r.2)
  else if type = DAX_INT then
    let r := clampTo (strtol0 instr) (-32768) 32767
    put buff mask 2 index r.1 (intLE 2 r.2)
  else if type = DAX_DWORD ∨ type = DAX_UDINT then
    let r := clampTo (strtol0 instr) 0 4294967295
    put buff mask 4 index r.1 (intLE 4 r.2)
  else if type = DAX_DINT then
    let r := clampTo (strtol0 instr) (-2147483648) 2147483647
    put buff mask 4 index r.1 (intLE 4 r.2)
  else if type = DAX_REAL then put buff mask 4 index 0 (e.strtof instr)
  else if type = DAX_LWORD ∨ type = DAX_ULINT then
    if instr.head? = some 45#8 then do
      -- the mask is left alone here
      let b ← wr buff (8 * index) (intLE 8 0)
      .ok (ERR_UNDERFLOW, b, mask)
    else put buff mask 8 index (if strtoulRange instr then ERR_OVERFLOW else 0)
      (intLE 8 (strtoul0 instr))
  else if type = DAX_LINT then putLint instr buff mask index
  else if type = DAX_TIME then
    match dateOf e instr with
    | none => putLint instr buff mask index
    | some ms => put buff mask 8 index 0 (intLE 8 ms)
  else if type = DAX_LREAL then put buff mask 8 index 0 (e.strtod instr)
  else .ok (0, buff, mask)

/-- Value of `n` bytes as a signed number. -/
def sintOf (d : List Byte) : Int :=
  if 2 * leNat d < 256 ^ d.length then leNat d else (leNat d : Int) - (256 ^ d.length : Nat)

/-- What `snprintf` leaves in a buffer of `size` bytes; nothing is stored if `size` is 0. -/
def printed (size : Nat) (t : Name) : C Name :=
  if size = 0 then .ub "buffer without terminator" else .ok (t.take (size - 1))

/-- `dax_val_to_string`, `src/lib/libfunc.c:44-107`, for `BOOL`, `CHAR` and the integer types:
the text in the buffer as a C string.  `REAL`, `LREAL` and `TIME` (and the unchecked
`strncat` there) are not modelled. -/
def valToString (size : Nat) (type : Nat) (val : List Byte) (index : Int) : C Name :=
  if type = DAX_BOOL then
    if index < 0 then .ub "negative shift"
    else match val[index.toNat / 8]? with
      | none => .ub "read outside block"
      | some x => printed size (if x.getLsbD (index.toNat % 8) then nm "1" else nm "0")
  else if type = DAX_BYTE then do
    let d ← rd val index 1
    printed size (decInt (leNat d))
  else if type = DAX_SINT then do
    let d ← rd val index 1
    printed size (decInt (sintOf d))
  else if type = DAX_CHAR then do
    let d ← rd val index 1
    -- a NUL character ends the text
    printed size (d.takeWhile (· != 0))
  else if type = DAX_WORD ∨ type = DAX_UINT then do
    let d ← rd val (2 * index) 2
    printed size (decInt (leNat d))
  else if type = DAX_INT then do
    let d ← rd val (2 * index) 2
    printed size (decInt (sintOf d))
  else if type = DAX_DWORD ∨ type = DAX_UDINT then do
    let d ← rd val (4 * index) 4
    printed size (decInt (leNat d))
  else if type = DAX_DINT then do
    let d ← rd val (4 * index) 4
    printed size (decInt (sintOf d))
  else if type = DAX_LWORD ∨ type = DAX_ULINT then do
    let d ← rd val (8 * index) 8
    printed size (decInt (leNat d))
  else if type = DAX_LINT then do
    let d ← rd val (8 * index) 8
    printed size (decInt (sintOf d))
  else .ub "not modelled"

end Dax.Conv
