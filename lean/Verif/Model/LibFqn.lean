import Verif.Model.LibPath
/-!
# The name of a handle: `dax_fqn`, `src/lib/libcdt.c:872-1027`

The text grows in an array of 1024 bytes on the stack.  The search for the tag by its index (`dax_tag_byindex`, see
`Model/LibCache.lean`) is a parameter.
-/
set_option autoImplicit false
namespace Dax.LibPath

/-- `FQN_TAG_SIZE`, `src/lib/libcdt.c:872`. -/
def FQN_TAG_SIZE : Nat := 1024

/-- `struct _fqn_data`, `src/lib/libcdt.c:875-884`: what has been found (`member` is uninitialised before), the position reached, and the position looked for. -/
structure FqnData where
  member : Option Iter := none
  byte : Int
  bit : Int
  finalByte : Int
  finalBit : Int
deriving Repr, DecidableEq

/-- The next whole byte, `src/lib/libcdt.c:905-908`. -/
def fqnAlign (d : FqnData) : C (Int × Int) :=
  if d.bit > 0 then do
    let b ← addI32 d.byte 1
    .ok (b, 0)
  else .ok (d.byte, d.bit)

/-- `_fqn_callback` while `done` is 0, `src/lib/libcdt.c:886-919`; the Boolean is `done`.  `final_bit` is below 256. -/
def fqnMember (s : Server) (fd : Int) (c : TypeCache) (d : FqnData) (m : Iter) : C (TypeCache × FqnData × Bool) :=
  if m.type = DAX_BOOL then do
    let byte ← addI32 d.byte (m.count / 8 : Nat)
    let bit ← addI32 d.bit (m.count % 8 : Nat)
    let x ← mulI32 byte 8
    let x ← addI32 x bit
    let y ← mulI32 d.finalByte 8
    let y ← addI32 y d.finalBit
    if x > y then .ok (c, { d with member := some m, byte := byte - (m.count / 8 : Nat), bit := bit - (m.count % 8 : Nat) }, true)
    else .ok (c, { d with byte := byte, bit := bit }, false)
  else do
    let (b0, bit) ← fqnAlign d
    let (c, size) ← ctypeSize s fd c m.type
    let msize ← mulI32 m.count size
    let byte ← addI32 b0 msize
    if byte > d.finalByte then .ok (c, { d with member := some m, byte := byte - msize, bit := bit }, true)
    else .ok (c, { d with byte := byte, bit := bit }, false)

/-- The iteration with `_fqn_callback`: nothing happens once the member is found, `src/lib/libcdt.c:892,925-926`.  The types that are asked for in the iteration
itself are asked for before those that the callback asks for. -/
def fqnLoop (s : Server) (fd : Int) : List Iter → TypeCache → FqnData → C (TypeCache × FqnData)
  | [], c, d => .ok (c, d)
  | m :: ms, c, d => do
    let (c, d, done) ← fqnMember s fd c d m
    if done then .ok (c, d) else fqnLoop s fd ms c d

/-- `strncat(str, text, FQN_TAG_SIZE)` into an array of that size, `src/lib/libcdt.c:936,938-939,955`. -/
def fqnCat (str text : Name) : C Name :=
  if str.length + text.length < FQN_TAG_SIZE then .ok (str ++ text) else .ub "write outside array"

/-- The name of the member found, with the index if it is an array, `src/lib/libcdt.c:928-940`.  Division by the size of the type. -/
def fqnName (s : Server) (fd : Int) (c : TypeCache) (str : Name) (d : FqnData) (m : Iter) : C (TypeCache × Name × FqnData) :=
  if (m.count : Int) > 1 then
    if m.type = DAX_BOOL then do
      let x ← addI32 d.finalByte (-d.byte)
      let x ← mulI32 x 8
      let i ← addI32 x (d.finalBit - d.bit)
      let str ← fqnCat str (46#8 :: m.name ++ 91#8 :: decInt i ++ [93#8])
      .ok (c, str, d)
    else do
      let x ← addI32 d.finalByte (-d.byte)
      let (c, size) ← ctypeSize s fd c m.type
      if size = 0 then .ub "division by zero"
      else do
        let i := x.tdiv size
        let (c, size) ← ctypeSize s fd c m.type
        let y ← mulI32 i size
        let byte ← addI32 d.byte y
        let str ← fqnCat str (46#8 :: m.name ++ 91#8 :: decInt i ++ [93#8])
        .ok (c, str, { d with byte := byte })
  else do
    let str ← fqnCat str (46#8 :: m.name)
    .ok (c, str, d)

/-- `_fqn_cdt_member`, `src/lib/libcdt.c:921-960`.  `fuel` bounds the number of names; every name takes space in `str`. -/
def fqnCdtMember (s : Server) (fd : Int) : Nat → TypeCache → Name → Nat → FqnData → C (TypeCache × Name)
  | 0, _, _, _, _ => .ub "unbounded recursion"
  | fuel + 1, c, str, type, d => do
    let (c, _, l) ← cdtIter s fd c type
    let (c, d) ← fqnLoop s fd l c d
    match d.member with
    | none => .ub "uninitialised variable"
    | some m => do
      let (c, str, d) ← fqnName s fd c str d m
      if d.byte ≠ d.finalByte ∨ d.bit ≠ d.finalBit then
        if isCustom m.type then fqnCdtMember s fd fuel c str m.type d
        else if m.type ≠ DAX_BOOL then do
          let x ← addI32 d.finalByte (-d.byte)
          let x ← mulI32 x 8
          let i ← addI32 x (d.finalBit - d.bit)
          let str ← fqnCat str (46#8 :: decInt i)
          .ok (c, str)
        else .ok (c, str)
      else .ok (c, str)

/-- The name and the index of the element, `src/lib/libcdt.c:999-1005`: text and `i`.  `h.byte` and `tag.count` are `unsigned`, and `ts` is converted. -/
def fqnTag (h : Handle) (name : Name) (count : Nat) (ts : Int) : Name × Int :=
  if count > 1 ∧ (h.byte > 0 ∨ h.count ≠ count) then
    let i := i32 (h.byte / u32 ts : Nat)
    (name ++ 91#8 :: decInt i ++ [93#8], i)
  else (name, 0)

/-- `dax_fqn`, `src/lib/libcdt.c:974-1027`, without the `malloc` of the result.  The name of a tag has at most 32 characters. -/
def fqn (s : Server) (fd : Int) (byindex : Int → Option (Name × TagFound)) (c : TypeCache) (h : Handle) : C (TypeCache × Option Name) :=
  match byindex h.index with
  | none => .ok (c, none)
  | some (name, tag) =>
    if tag.type = DAX_BOOL then
      if h.byte > 0 ∨ h.bit > 0 then .ok (c, some (name ++ 91#8 :: decInt (i32 (u32 (h.byte * 8 + h.bit : Nat))) ++ [93#8]))
      else .ok (c, some name)
    else do
      let (c, ts) ← ctypeSize s fd c tag.type
      if ts = 0 then .ub "assertion failed"
      else do
        let (str, i) := fqnTag h name tag.count ts
        let offset ← mulI32 i ts
        if isCustom tag.type ∧ h.type ≠ tag.type then do
          let (c, str) ← fqnCdtMember s fd FQN_TAG_SIZE c str tag.type
            { byte := offset, bit := 0, finalByte := i32 h.byte, finalBit := h.bit }
          .ok (c, some str)
        else if h.type = DAX_BOOL then
          .ok (c, some (str ++ 46#8 :: decInt (i32 (u32 (h.bit + (h.byte - offset) * 8)))))
        else .ok (c, some str)

end Dax.LibPath
