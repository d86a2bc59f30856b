import Verif.Model.Tagbase
/-!
# Atomic operations: `src/server/atomic.c`
-/
namespace Dax

/-- `_left_shift`, `src/server/atomic.c:31-38`: bytes above the first.  `prev` is the source
byte before. -/
def shiftFrom (bit : Nat) (prev : Byte) : List Byte → List Byte
  | [] => []
  | b :: bs => ((prev >>> (8 - bit)) ||| (b <<< bit)) :: shiftFrom bit b bs

/-- `_left_shift`, `src/server/atomic.c:31-38`, of a whole buffer. -/
def leftShift (bit : Nat) : List Byte → List Byte
  | [] => []
  | b :: bs => (b <<< bit) :: shiftFrom bit b bs

/-- `hmask`, e.g. `src/server/atomic.c:169`. -/
def hMask (h : Handle) : Byte := 0xFF#8 <<< ((h.bit + h.count % 8) % 8)

/-- `lmask`, e.g. `src/server/atomic.c:170`. -/
def lMask (h : Handle) : Byte := 0xFF#8 >>> (8 - h.bit)

/-- Apply a function to one byte; out of range is undefined behaviour. -/
def modB (b : List Byte) (i : Nat) (f : Byte → Byte) : C (List Byte) :=
  match b[i]? with
  | none => .ub "byte outside block"
  | some x => .ok (b.set i (f x))

/-- `temp[h.size-1] &= ~hmask; temp[0] &= ~lmask` (OR, NOR, XOR, XNOR). -/
def maskTempClear (h : Handle) (t : List Byte) : C (List Byte) := do
  let t ← modB t (h.size - 1) (fun x => x &&& ~~~ hMask h)
  modB t 0 (fun x => x &&& ~~~ lMask h)

/-- `temp[h.size-1] |= hmask; temp[0] |= lmask` (AND, NAND). -/
def maskTempSet (h : Handle) (t : List Byte) : C (List Byte) := do
  let t ← modB t (h.size - 1) (fun x => x ||| hMask h)
  modB t 0 (fun x => x ||| lMask h)

/-- The logic operations. -/
inductive Logic where
  | or | and | nor | nand | xor | xnor
deriving Repr, DecidableEq

/-- The bitwise function applied with `temp` before any toggling. -/
def Logic.base : Logic → Byte → Byte → Byte
  | .or, a, b => a ||| b
  | .nor, a, b => a ||| b
  | .and, a, b => a &&& b
  | .nand, a, b => a &&& b
  | .xor, a, b => a ^^^ b
  | .xnor, a, b => a ^^^ b

/-- Does the operation toggle afterwards? -/
def Logic.neg : Logic → Bool
  | .nor => true
  | .nand => true
  | .xnor => true
  | _ => false

/-- Does the mask fill with ones (AND, NAND)? -/
def Logic.ones : Logic → Bool
  | .and => true
  | .nand => true
  | _ => false

/-- Toggle the bytes `byte+1 … byte+size-2`, e.g. `src/server/atomic.c:242-244`. -/
def toggleMid : Nat → Nat → List Byte → C (List Byte)
  | 0, _, b => .ok b
  | r + 1, i, b => do
    let b ← modB b i (fun x => x ^^^ 0xFF#8)
    toggleMid r (i + 1) b

/-- The shifted BOOL branch of the six logic operations, `src/server/atomic.c:166-177` (OR),
`:195-205` (AND), `:224-247` (NOR), `:266-282` (NAND), `:300-311` (XOR), `:329-346` (XNOR).
The final toggles of the negated operations index the data block with `size-1` and `0`,
without the handle's byte offset. -/
def logicShift (op : Logic) (h : Handle) (block d : List Byte) : C (List Byte) :=
  if h.bit > 7 then .ub "bit offset"
  else if h.size = 0 then .ub "empty array"
  else do
    let src ← rd d 0 h.size
    let tmp := leftShift h.bit src
    let tmp ← if op.ones then maskTempSet h tmp else maskTempClear h tmp
    let old ← rd block h.byte h.size
    let b ← wr block h.byte (List.zipWith op.base old tmp)
    if op.neg then do
      let b ← toggleMid (h.size - 2) (h.byte + 1) b
      let b ← modB b (h.size - 1) (fun x => x ^^^ ~~~ hMask h)
      modB b 0 (fun x => x ^^^ ~~~ lMask h)
    else .ok b

/-- The bytewise function of the plain branch. -/
def Logic.plain (op : Logic) (a b : Byte) : Byte :=
  if op.neg then ~~~ (op.base a b) else op.base a b

/-- The plain branch of the six logic operations, e.g. `src/server/atomic.c:178-182`: the
operand is indexed with the tag's byte offset added. -/
def logicPlain (op : Logic) (h : Handle) (block d : List Byte) : C (List Byte) :=
  if h.size = 0 then .ok block
  else do
    let src ← rd d h.byte h.size
    let old ← rd block h.byte h.size
    wr block h.byte (List.zipWith op.plain old src)

/-- One of `_atomic_or` … `_atomic_xnor`; `none` is `ERR_BADTYPE`. -/
def atomicLogic (op : Logic) (h : Handle) (block d : List Byte) : C (Option (List Byte)) :=
  if h.type = DAX_REAL ∨ h.type = DAX_LREAL then .ok none
  else if h.type = DAX_BOOL ∧ ¬ (h.count % 8 = 0 ∧ h.bit = 0) then do
    let b ← logicShift op h block d
    .ok (some b)
  else do
    let b ← logicPlain op h block d
    .ok (some b)

/-- BOOL loop of `_atomic_not`, `src/server/atomic.c:139-148`. -/
def notBits : Nat → Nat → List Byte → C (List Byte)
  | 0, _, b => .ok b
  | r + 1, p, b => do
    let b ← modB b (p / 8) (fun x => x ^^^ bitMask (p % 8))
    notBits r (p + 1) b

/-- `_atomic_not`, `src/server/atomic.c:130-155`; `none` is `ERR_BADTYPE`. -/
def atomicNot (h : Handle) (block : List Byte) : C (Option (List Byte)) :=
  if h.type = DAX_REAL ∨ h.type = DAX_LREAL then .ok none
  else if h.type = DAX_BOOL then
    if h.bit > 7 then .ub "bit offset"
    else do
      let b ← notBits h.count (8 * h.byte + h.bit) block
      .ok (some b)
  else do
    let old ← rd block h.byte h.size
    let b ← wr block h.byte (old.map (fun x => ~~~ x))
    .ok (some b)

/-- Value stored by `_atomic_inc` (`sub = false`) or `_atomic_dec` (`sub = true`) for the
integer types, `src/server/atomic.c:41-83,85-127`; small types wrap, `DINT` and `LINT`
overflow is undefined. -/
def incValue (sub : Bool) (t : Nat) (a b : List Byte) : C (List Byte) :=
  let x : Int := if sub then cmpVal t a - cmpVal t b else cmpVal t a + cmpVal t b
  if t = DAX_DINT ∧ ¬ (-2147483648 ≤ x ∧ x < 2147483648) then .ub "signed overflow"
  else if t = DAX_LINT ∧ ¬ (-9223372036854775808 ≤ x ∧ x < 9223372036854775808) then
    .ub "signed overflow"
  else .ok (toLE a.length (x % 2 ^ (8 * a.length)).toNat)

/-- `_atomic_inc` / `_atomic_dec`; `error` is the returned code.  The widths are those of
`cmpWidth` (TIME uses a 32-bit variable). -/
def atomicInc (e : Env) (sub : Bool) (h : Handle) (block d : List Byte) :
    C (Except Int (List Byte)) :=
  if h.count ≠ 1 then .ok (.error ERR_ILLEGAL)
  else match cmpWidth h.type with
    | none => .ok (.error ERR_ARG)
    | some w => do
      let a ← rd block h.byte w
      let b ← rd d 0 w
      let v ← if h.type = DAX_REAL ∨ h.type = DAX_LREAL then
                .ok (if sub then e.fsub h.type a b else e.fadd h.type a b)
              else incValue sub h.type a b
      let blk ← wr block h.byte v
      .ok (.ok blk)

/-- Operation codes, `src/opendax.h:175-183`. -/
def ATOMIC_INC : Nat := 1
def ATOMIC_DEC : Nat := 2
def ATOMIC_NOT : Nat := 3
def ATOMIC_OR : Nat := 4
def ATOMIC_AND : Nat := 5
def ATOMIC_NOR : Nat := 6
def ATOMIC_NAND : Nat := 7
def ATOMIC_XOR : Nat := 8
def ATOMIC_XNOR : Nat := 9

/-- Wrap the result of a logic operation. -/
def badType : Option (List Byte) → Except Int (List Byte)
  | none => .error ERR_BADTYPE
  | some b => .ok b

/-- The switch of `atomic_op`, `src/server/atomic.c:382-414`. -/
def atomicApply (e : Env) (h : Handle) (block d : List Byte) (op : Nat) :
    C (Except Int (List Byte)) :=
  if op = ATOMIC_INC then
    if h.type = DAX_BOOL then .ok (.error ERR_BADTYPE) else atomicInc e false h block d
  else if op = ATOMIC_DEC then
    if h.type = DAX_BOOL then .ok (.error ERR_BADTYPE) else atomicInc e true h block d
  else if op = ATOMIC_NOT then do let r ← atomicNot h block; .ok (badType r)
  else if op = ATOMIC_OR then do let r ← atomicLogic .or h block d; .ok (badType r)
  else if op = ATOMIC_AND then do let r ← atomicLogic .and h block d; .ok (badType r)
  else if op = ATOMIC_NOR then do let r ← atomicLogic .nor h block d; .ok (badType r)
  else if op = ATOMIC_NAND then do let r ← atomicLogic .nand h block d; .ok (badType r)
  else if op = ATOMIC_XOR then do let r ← atomicLogic .xor h block d; .ok (badType r)
  else if op = ATOMIC_XNOR then do let r ← atomicLogic .xnor h block d; .ok (badType r)
  else .ok (.error ERR_NOTIMPLEMENTED)

/-- `atomic_op`, `src/server/atomic.c:356-422`.  `d` is the message buffer from the operand
on.  The bounds check compares a byte count with a bit count. -/
def atomicOp (s : Server) (h : Handle) (d : List Byte) (op : Nat) : C (Server × Int) :=
  if isCustom h.type then .ok (s, ERR_BADTYPE)
  else match s.tag? h.index with
    | none => .ok (s, ERR_ARG)
    | some t =>
      if u32 ((h.byte : Int) + h.size) > (t.count * typeBits t.type) % 4294967296 then
        .ok (s, ERR_2BIG)
      else if t.attr.virt || t.attr.special then .ok (s, ERR_READONLY)
      else match t.data with
        | .freed => .ok (s, ERR_DELETED)
        | .mem block => do
          match ← atomicApply s.env h block d op with
          | .error e => .ok (s, e)
          | .ok b => commitWrite s h.index t b (i32 h.byte) h.size
        | _ => .ub "ordinary tag without data block"

end Dax
