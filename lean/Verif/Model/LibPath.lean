import Verif.Model.LibCdt
/-!
# Tag paths and member iteration in the client library: `src/lib/libcdt.c`

The type cache and the requests for missing types are those of `Model/LibCdt.lean`.  The search for the tag
(`dax_tag_byname`, see `Model/LibCache.lean`) is a parameter.
-/
set_option autoImplicit false
namespace Dax.LibPath

/-- What `dax_tag_byname` gives, `src/opendax.h:263-269` (the fields used here). -/
structure TagFound where
  idx : Int
  type : Nat
  count : Nat
deriving Repr, DecidableEq

/-- `ERR_ARBITRARY`, `src/opendax.h:124`. -/
def ERR_ARBITRARY : Int := -18

/-- `isdigit`. -/
def isDigit (b : Byte) : Bool := 48 ≤ b.toNat && b.toNat ≤ 57

/-- `_split_tagname`, `src/lib/libcdt.c:475-490`: the text before the first '.', and that after it. -/
def splitTagname (s : Name) : Name × Option Name :=
  let a := s.takeWhile (· ≠ 46#8)
  (a, if a.length < s.length then some (s.drop (a.length + 1)) else none)

/-- `_get_index`, `src/lib/libcdt.c:498-514`: the text before the first '[', and the index. -/
def getIndex (s : Name) : Name × Int :=
  let a := s.takeWhile (· ≠ 91#8)
  if a.length < s.length then
    let rest := s.drop (a.length + 1)
    (a, if (rest.takeWhile (· ≠ 93#8)).all isDigit then atoi rest else ERR_ARG)
  else (a, ERR_NOTFOUND)

/-- `(bit + count - 1) / 8 - (bit / 8) + 1` as it is stored in `h->size`, `src/lib/libcdt.c:546,623,639,718,733`. -/
def bitSize (bit : Nat) (count : Int) : C Nat := do
  let x ← addI32 bit count
  let y ← addI32 x (-1)
  .ok (u32 (y.tdiv 8 - (bit / 8 : Nat) + 1))

/-- `_parse_bit_index`, `src/lib/libcdt.c:519-550`; `strtol` reads the digits and must reach the end of the text.
`h->bit` is one byte. -/
def parseBitIndex (s : Server) (fd : Int) (c : TypeCache) (type : Nat) (h : Handle) (digit : Name) (index count : Int) :
    C (TypeCache × Handle × Int) :=
  if [DAX_BOOL, DAX_TIME, DAX_REAL, DAX_LREAL].contains type || isCustom type then .ok (c, h, ERR_BADTYPE)
  else
    let index := if index < 0 then 0 else index
    let bit := (clampLong (digitsVal 10 0 digit) % 256).toNat
    if !digit.all isDigit then .ok (c, { h with bit := bit }, ERR_ARG)
    else do
      let (c, size) ← ctypeSize s fd c type
      if bit > size * 8 then .ok (c, { h with bit := bit }, ERR_2BIG)
      else
        let count := if count = 0 then 1 else count
        let x ← addI32 bit count
        if x > size * 8 then .ok (c, { h with bit := bit }, ERR_2BIG)
        else do
          let y ← mulI32 size index
          let z ← addI32 y (bit / 8 : Nat)
          let sz ← bitSize (bit % 8) count
          .ok (c, { h with byte := u32 (h.byte + z), bit := bit % 8, type := DAX_BOOL, size := sz, count := u32 count }, 0)

/-- The loop that looks for a member and adds up what is before it, `src/lib/libcdt.c:576-600`. -/
def findMember (s : Server) (fd : Int) (name : Name) : List Member → TypeCache → Handle → C (TypeCache × Handle × Option Member)
  | [], c, h => .ok (c, h, none)
  | m :: ms, c, h =>
    if name = m.name then .ok (c, h, some m)
    else if m.type = DAX_BOOL then do
      let x ← addI32 h.bit m.count
      let bit := u32 x % 256
      findMember s fd name ms c { h with byte := u32 (h.byte + (bit / 8 : Nat)), bit := bit % 8, type := m.type }
    else do
      let byte := if h.type = DAX_BOOL ∧ h.bit > 0 then u32 (h.byte + 1) else h.byte
      let (c, size) ← ctypeSize s fd c m.type
      let y ← mulI32 size m.count
      findMember s fd name ms c { h with byte := u32 (byte + y), bit := 0, type := m.type }

/-- The last part of `_parse_next_member`, `src/lib/libcdt.c:616-655`: the member `m` itself is meant. -/
def lastMember (s : Server) (fd : Int) (c : TypeCache) (h : Handle) (m : Member) (index count : Int) : C (TypeCache × Handle × Int) :=
  let h := if h.type = DAX_BOOL ∧ m.type ≠ DAX_BOOL ∧ h.bit > 0 then { h with byte := u32 (h.byte + 1), bit := 0 } else h
  let h := { h with type := m.type }
  if index ≠ ERR_NOTFOUND then
    let count := if count = 0 then 1 else count
    do
    let x ← addI32 index count
    if x > m.count then .ok (c, h, ERR_2BIG)
    else if m.type = DAX_BOOL then do
      let bit := u32 (h.bit + index.tmod 8) % 256
      let sz ← bitSize bit count
      .ok (c, { h with byte := u32 (h.byte + index.tdiv 8), bit := bit, size := sz, count := u32 count }, 0)
    else do
      let (c, size) ← ctypeSize s fd c m.type
      let y ← mulI32 size count
      let z ← mulI32 size index
      .ok (c, { h with size := u32 y, byte := u32 (h.byte + z), bit := 0, count := u32 count }, 0)
  else if count > m.count then .ok (c, h, ERR_2BIG)
  else
    let count := if count = 0 then (m.count : Int) else count
    if m.type = DAX_BOOL then do
      let sz ← bitSize h.bit count
      .ok (c, { h with size := sz, count := u32 count }, 0)
    else do
      let (c, size) ← ctypeSize s fd c m.type
      let y ← mulI32 size count
      .ok (c, { h with bit := 0, size := u32 y, count := u32 count }, 0)

/-- `_parse_next_member`, `src/lib/libcdt.c:552-656`; `fuel` bounds the number of names in the text. -/
def parseNextMember (s : Server) (fd : Int) : Nat → TypeCache → Nat → Handle → Name → Int → C (TypeCache × Handle × Int)
  | 0, _, _, _, _, _ => .ub "unbounded recursion"
  | fuel + 1, c, lasttype, h, str, count => do
    let (name, next) := splitTagname str
    let (name, index) := getIndex name
    if index < 0 ∧ index ≠ ERR_NOTFOUND then .ok (c, h, index)
    else do
      let (c, tn) ← typeToString s fd c lasttype
      match tn with
      | none => .ok (c, h, ERR_NOTFOUND)
      | some _ =>
        match c[cdtToIndex lasttype]? with
        | none => .ub "datatype array index"
        | some e => do
          let (c, h, m) ← findMember s fd name e.members c h
          match m with
          | none => .ok (c, h, ERR_NOTFOUND)
          | some m =>
            match next with
            | none => lastMember s fd c h m index count
            | some next =>
              if (next.head?.map isDigit).getD false then
                if m.count > 1 ∧ index < 0 then .ok (c, h, ERR_ARG)
                else parseBitIndex s fd c m.type h next index count
              else do
                let (c, h, r) ← parseNextMember s fd fuel c m.type h next count
                if r ≠ 0 then .ok (c, h, r)
                else if index ≠ ERR_NOTFOUND then do
                  let x ← addI32 index (if count = 0 then 1 else count)
                  if x > m.count then .ok (c, h, ERR_2BIG)
                  else do
                    let (c, size) ← ctypeSize s fd c m.type
                    let y ← mulI32 size index
                    .ok (c, { h with byte := u32 (h.byte + y) }, 0)
                else .ok (c, h, 0)

/-- `_dax_tag_handle`, `src/lib/libcdt.c:658-745`.  `tag.count` is `unsigned`. -/
def tagHandleAux (s : Server) (fd : Int) (byname : Name → Option TagFound) (c : TypeCache) (h : Handle) (str : Name) (count : Int) :
    C (TypeCache × Handle × Int) :=
  let (name, next) := splitTagname str
  let (name, index) := getIndex name
  if index < 0 ∧ index ≠ ERR_NOTFOUND then .ok (c, h, index)
  else
    match byname name with
    | none => .ok (c, h, ERR_NOTFOUND)
    | some tag =>
      let h := { h with index := tag.idx }
      match next with
      | some next =>
        if (next.head?.map isDigit).getD false then
          if tag.count > 1 ∧ index < 0 then .ok (c, h, ERR_ARG)
          else parseBitIndex s fd c tag.type h next index count
        else if !isCustom tag.type then .ok (c, h, ERR_ARG)
        else if tag.count > 1 ∧ index = ERR_NOTFOUND then .ok (c, h, ERR_ARBITRARY)
        else do
          let (c, h, r) ← parseNextMember s fd (str.length + 1) c tag.type h next count
          if r ≠ 0 then .ok (c, h, r)
          else if index ≠ ERR_NOTFOUND then do
            let (c, size) ← ctypeSize s fd c tag.type
            let y ← mulI32 size index
            .ok (c, { h with byte := u32 (h.byte + y) }, 0)
          else .ok (c, h, 0)
      | none =>
        let h := { h with type := tag.type }
        if index ≠ ERR_NOTFOUND then
          let count := if count = 0 then 1 else count
          do
          let x ← addI32 index count
          if u32 x > tag.count then .ok (c, h, ERR_2BIG)
          else if tag.type = DAX_BOOL then do
            let bit := u32 (index.tmod 8) % 256
            let sz ← bitSize bit count
            .ok (c, { h with byte := u32 (index.tdiv 8), bit := bit, size := sz, count := u32 count }, 0)
          else do
            let (c, size) ← ctypeSize s fd c tag.type
            let y ← mulI32 size count
            let z ← mulI32 size index
            .ok (c, { h with size := u32 y, byte := u32 z, bit := 0, count := u32 count }, 0)
        else if u32 count > tag.count then .ok (c, h, ERR_2BIG)
        else
          let count := if count = 0 then i32 tag.count else count
          if tag.type = DAX_BOOL then do
            let sz ← bitSize 0 count
            .ok (c, { h with byte := 0, bit := 0, size := sz, count := u32 count }, 0)
          else do
            let (c, size) ← ctypeSize s fd c tag.type
            let y ← mulI32 size count
            .ok (c, { h with size := u32 y, byte := 0, bit := 0, count := u32 count }, 0)

/-- The handle with all fields 0 (`bzero`). -/
def noHandle : Handle := ⟨0, 0, 0, 0, 0, 0⟩

/-- `dax_tag_handle`, `src/lib/libcdt.c:749-764`. -/
def tagHandle (s : Server) (fd : Int) (byname : Name → Option TagFound) (c : TypeCache) (str : Name) (count : Int) :
    C (TypeCache × Handle × Int) := do
  let (c, h, r) ← tagHandleAux s fd byname c noHandle str count
  .ok (c, if r ≠ 0 then noHandle else h, r)

/-- `struct cdt_iter`, `src/opendax.h:432-438`. -/
structure Iter where
  name : Name
  type : Nat
  count : Nat
  byte : Int
  bit : Int
deriving Repr, DecidableEq

/-- The loop over the members in `dax_cdt_iter`, `src/lib/libcdt.c:809-839`; the result is the list of the
arguments of the callback. -/
def iterLoop (s : Server) (fd : Int) : List Member → TypeCache → Int → Int → C (TypeCache × List Iter)
  | [], c, _, _ => .ok (c, [])
  | [m], c, byte, bit => .ok (c, [⟨m.name, m.type, m.count, byte, bit⟩])
  | m :: m' :: ms, c, byte, bit => do
    let (c, rest) ←
      if m.type = DAX_BOOL then
        let bit' := bit + (m.count % 8 : Nat)
        do
        let byte' ← addI32 byte (m.count / 8 : Nat)
        let (byte', bit') ← if bit' > 7 then do
            let b ← addI32 byte' 1
            C.ok (b, bit'.tmod 8)
          else C.ok (byte', bit')
        if m'.type ≠ DAX_BOOL ∧ bit' ≠ 0 then do
          let b ← addI32 byte' 1
          iterLoop s fd (m' :: ms) c b 0
        else iterLoop s fd (m' :: ms) c byte' bit'
      else do
        let (c, size) ← ctypeSize s fd c m.type
        let y ← mulI32 size m.count
        let b ← addI32 byte y
        iterLoop s fd (m' :: ms) c b 0
    .ok (c, ⟨m.name, m.type, m.count, byte, bit⟩ :: rest)

/-- `get_cdt_pointer`, `src/lib/libcdt.c:157-180`: the members or the error.  A type that is not compound gives
NULL without error. -/
def cdtMembers (s : Server) (fd : Int) (c : TypeCache) (t : Nat) : C (TypeCache × Except Int (List Member)) :=
  if isCustom t then
    match c[cdtToIndex t]? with
    | some ⟨some _, ms⟩ => .ok (c, .ok ms)
    | _ => do
      let (c, r) ← cdtGet s fd c (.cdtGetType t)
      if r = 0 then
        match c[cdtToIndex t]? with
        | some e => .ok (c, .ok e.members)
        | none => .ub "datatype array index"
      else .ok (c, .error r)
  else .ok (c, .error 0)

/-- `dax_cdt_iter` for the members of a type, `src/lib/libcdt.c:779-842` (the iteration over all types, for
type 0, is not modelled). -/
def cdtIter (s : Server) (fd : Int) (c : TypeCache) (t : Nat) : C (TypeCache × Int × List Iter) := do
  let (c, r) ← cdtMembers s fd c t
  match r with
  | .error e => .ok (c, e, [])
  | .ok ms => do
    let (c, l) ← iterLoop s fd ms c 0 0
    .ok (c, 0, l)

end Dax.LibPath
