import Verif.Model.Server
/-!
# Event evaluation: `src/server/events.c:33-440`
-/
namespace Dax

/-- Read one byte of a block. -/
def getB (b : List Byte) (i : Int) : C Byte :=
  if 0 ≤ i then
    match b[i.toNat]? with
    | some x => .ok x
    | none => .ub "byte outside block"
  else .ub "byte below block"

/-- Loop over the bits of a BOOL event, common shape of `_event_change`
(`src/server/events.c:76-91`), `_event_set` (`:119-138`) and `_event_reset` (`:152-171`):
`this` is the test block, `that` the tag data from `event->byte` on; the position counter
`p` stands for the pair `(i, bit)` with `i = p / 8`, `bit = p % 8`.  `step this that bit`
returns whether to fire and the new test byte. -/
def bitLoop (step : Byte → Byte → Nat → Bool × Byte) (data : List Byte) (base : Int) :
    Nat → Nat → List Byte → Bool → C (Bool × List Byte)
  | 0, _, test, hit => .ok (hit, test)
  | r + 1, p, test, hit => do
    let a ← getB test (p / 8 : Nat)
    let b ← getB data (base + (p / 8 : Nat))
    let x := step a b (p % 8)
    bitLoop step data base r (p + 1) (test.set (p / 8) x.2) (hit || x.1)

/-- The mask `0x01 << bit`. -/
def bitMask (k : Nat) : Byte := BitVec.twoPow 8 k

/-- Body of the BOOL loop of `_event_change`, `src/server/events.c:81-85`. -/
def stepChange (a b : Byte) (k : Nat) : Bool × Byte :=
  if (a &&& bitMask k) ≠ (b &&& bitMask k) then (true, b) else (false, a)

/-- Body of the loop of `_event_set`, `src/server/events.c:124-132`. -/
def stepSet (a b : Byte) (k : Nat) : Bool × Byte :=
  if (b &&& bitMask k) ≠ 0 then
    if (a &&& bitMask k) = 0 then (true, a ||| bitMask k) else (false, a)
  else (false, a &&& ~~~ bitMask k)

/-- Body of the loop of `_event_reset`, `src/server/events.c:157-165`. -/
def stepReset (a b : Byte) (k : Nat) : Bool × Byte :=
  if (b &&& bitMask k) = 0 then
    if (a &&& bitMask k) = 0 then (true, a ||| bitMask k) else (false, a)
  else (false, a &&& ~~~ bitMask k)

/-- `MIN(event->byte + event->size, offset + size) - MAX(offset, event->byte)` stored in an
`int`, `src/server/events.c:96,262,355`; the left operand of `MIN` is unsigned, so the
comparison and the subtraction are unsigned. -/
def overlapLen (ev : Ev) (off size : Int) : Int :=
  i32 ((min (u32 (ev.byte + ev.size)) (u32 (off + size)) : Nat) - max off ev.byte)

/-- `_event_change`, `src/server/events.c:65-106`.  In the non-BOOL case the byte loop is
written as a comparison and a copy of the two slices; a negative length means no iteration.
A bit offset above 7 (the code would shift by it) is outside the model. -/
def evChange (ev : Ev) (data : List Byte) (off size : Int) : C (Bool × List Byte) :=
  if ev.dtype = DAX_BOOL then
    if ev.bit > 7 then .ub "bit offset" else
    bitLoop stepChange data ev.byte ev.count.toNat ev.bit ev.test false
  else
    let len := overlapLen ev off size
    if len ≤ 0 then .ok (false, ev.test)
    else do
      let a ← rd ev.test (max 0 (off - ev.byte)) len
      let b ← rd data (max off ev.byte) len
      let test' ← wr ev.test (max 0 (off - ev.byte)) b
      .ok (decide (a ≠ b), test')

/-- Width in bytes of the C type that `_generic_compare` and `_generic_deadband` use for a
type code, `src/server/events.c:179-244`; TIME is treated as a 32-bit value.  `none` is the
`assert(0)` at the end. -/
def cmpWidth (t : Nat) : Option Nat :=
  if t = DAX_BYTE ∨ t = DAX_SINT ∨ t = DAX_CHAR then some 1
  else if t = DAX_UINT ∨ t = DAX_WORD ∨ t = DAX_INT then some 2
  else if t = DAX_UDINT ∨ t = DAX_DWORD ∨ t = DAX_TIME ∨ t = DAX_DINT ∨ t = DAX_REAL then some 4
  else if t = DAX_ULINT ∨ t = DAX_LWORD ∨ t = DAX_LINT ∨ t = DAX_LREAL then some 8
  else none

/-- Is the type compared as a signed integer? -/
def cmpSigned (t : Nat) : Bool :=
  t = DAX_SINT || t = DAX_CHAR || t = DAX_INT || t = DAX_DINT || t = DAX_LINT

/-- Two's complement value of a little-endian byte string. -/
def leInt (b : List Byte) : Int :=
  if leNat b < 2 ^ (8 * b.length - 1) then leNat b else leNat b - 2 ^ (8 * b.length)

/-- Integer value of a byte string under a type code. -/
def cmpVal (t : Nat) (b : List Byte) : Int := if cmpSigned t then leInt b else leNat b

/-- Is it the representation of a NaN, with `mb` bits of mantissa and `eb` bits of exponent? -/
def fltNan (mb eb x : Nat) : Bool := x / 2 ^ mb % 2 ^ eb = 2 ^ eb - 1 && x % 2 ^ mb ≠ 0

/-- Sign and magnitude of a floating point number as an integer: IEEE 754 numbers are in the same order as these (both zeros give 0). -/
def fltKey (mb eb x : Nat) : Int :=
  if x / 2 ^ (mb + eb) % 2 = 0 then (x % 2 ^ (mb + eb) : Nat) else -((x % 2 ^ (mb + eb) : Nat) : Int)

/-- The operator `<` of C on floating point numbers (IEEE 754: false if one is a NaN). -/
def fltLess (mb eb a b : Nat) : Bool := !fltNan mb eb a && !fltNan mb eb b && fltKey mb eb a < fltKey mb eb b

/-- `<` on the bytes of values of the given type. -/
def cmpLess (t : Nat) (a b : List Byte) : Bool :=
  if t = DAX_REAL then fltLess 23 8 (leNat a) (leNat b)
  else if t = DAX_LREAL then fltLess 52 11 (leNat a) (leNat b)
  else cmpVal t a < cmpVal t b

/-- `_generic_compare` on the bytes of the two values, `src/server/events.c:176-248`. -/
def genericCompare (t : Nat) (a b : List Byte) : Int :=
  if cmpLess t a b then -1 else if cmpLess t b a then 1 else 0

/-- Loop of `_event_compare`, `src/server/events.c:263-274`: `k` iterations left, element
`bit`, current position `pos` in the tag data. -/
def cmpLoop (ev : Ev) (data : List Byte) (w inc : Nat) (cmp : Int) :
    Nat → Nat → Int → List Byte → Bool → C (Bool × List Byte)
  | 0, _, _, test, hit => .ok (hit, test)
  | k + 1, bit, pos, test, hit => do
    let a ← rd ev.data 0 w
    let b ← rd data pos w
    let f ← getB test (bit / 8 : Nat)
    if genericCompare ev.dtype a b = cmp then
      if (f &&& bitMask (bit % 8)) = 0 then
        cmpLoop ev data w inc cmp k (bit + 1) (pos + inc)
          (test.set (bit / 8) (f ||| bitMask (bit % 8))) true
      else cmpLoop ev data w inc cmp k (bit + 1) (pos + inc) test hit
    else
      cmpLoop ev data w inc cmp k (bit + 1) (pos + inc)
        (test.set (bit / 8) (f &&& ~~~ bitMask (bit % 8))) hit

/-- `_event_compare`, `src/server/events.c:251-276`. -/
def evCompare (ev : Ev) (data : List Byte) (off size cmp : Int) :
    C (Bool × List Byte) :=
  let inc := typeBits ev.dtype / 8
  if inc = 0 then .ub "division by zero"
  else
    let len := overlapLen ev off size
    if len ≤ 0 then .ok (false, ev.test)
    else
      match cmpWidth ev.dtype with
      | none => .ub "assert(0) in _generic_compare"
      | some w =>
        cmpLoop ev data w inc cmp ((len.toNat + inc - 1) / inc)
          (max 0 ((off - ev.byte).tdiv inc)).toNat (max off ev.byte) ev.test false

/-- Truncation of a value to `w` bytes, signed. -/
def wrapS (w : Nat) (x : Int) : Int :=
  if x % 2 ^ (8 * w) < 2 ^ (8 * w - 1) then x % 2 ^ (8 * w) else x % 2 ^ (8 * w) - 2 ^ (8 * w)

/-- `ABS`, `src/common.h:66`. -/
def cabs (x : Int) : Int := if x < 0 then -x else x

/-- `_generic_deadband` on the bytes of the band, the remembered value and the new value,
`src/server/events.c:281-343`, with the C conversions of each case. -/
def genericDeadband (e : Env) (t : Nat) (band old new : List Byte) : C Bool :=
  if t = DAX_REAL ∨ t = DAX_LREAL then .ok (e.fband t band old new)
  else if t = DAX_BYTE then
    .ok (decide (cabs (leNat old - leNat new) ≥ leNat band))
  else if t = DAX_SINT ∨ t = DAX_CHAR then
    .ok (decide (cabs (wrapS 1 (leInt old - leInt new)) ≥ leInt band))
  else if t = DAX_UINT ∨ t = DAX_WORD then
    .ok (decide (cabs (leNat old - leNat new) ≥ leNat band))
  else if t = DAX_INT then
    .ok (decide (cabs (wrapS 2 (leInt old - leInt new)) ≥ leInt band))
  else if t = DAX_UDINT ∨ t = DAX_DWORD ∨ t = DAX_TIME then
    .ok (decide (((leNat old : Int) - leNat new) % 4294967296 ≥ leNat band))
  else if t = DAX_DINT then
    let d := leInt old - leInt new
    if -2147483648 < d ∧ d < 2147483648 then .ok (decide (cabs d ≥ leInt band))
    else .ub "signed overflow"
  else if t = DAX_ULINT ∨ t = DAX_LWORD then
    let d := wrapS 8 ((leNat old : Int) - leNat new)
    if d = -9223372036854775808 then .ub "signed overflow"
    else .ok (decide (cabs d ≥ leNat band))
  else if t = DAX_LINT then
    let d := leInt old - leInt new
    if -9223372036854775808 < d ∧ d < 9223372036854775808 then .ok (decide (cabs d ≥ leInt band))
    else .ub "signed overflow"
  else .ub "assert(0) in _generic_deadband"

/-- Loop of `_event_deadband`, `src/server/events.c:357-362`. -/
def bandLoop (e : Env) (ev : Ev) (data : List Byte) (w inc : Nat) :
    Nat → Int → Int → List Byte → Bool → C (Bool × List Byte)
  | 0, _, _, test, hit => .ok (hit, test)
  | k + 1, tpos, pos, test, hit => do
    let band ← rd ev.data 0 w
    let old ← rd test tpos w
    let new ← rd data pos w
    if ← genericDeadband e ev.dtype band old new then do
      let src ← rd data pos inc
      let test' ← wr test tpos src
      bandLoop e ev data w inc k (tpos + inc) (pos + inc) test' true
    else bandLoop e ev data w inc k (tpos + inc) (pos + inc) test hit

/-- `_event_deadband`, `src/server/events.c:347-364`. -/
def evDeadband (e : Env) (ev : Ev) (data : List Byte) (off size : Int) : C (Bool × List Byte) :=
  let inc := typeBits ev.dtype / 8
  if inc = 0 then .ub "endless loop"
  else
    let len := overlapLen ev off size
    if len ≤ 0 then .ok (false, ev.test)
    else
      match cmpWidth ev.dtype with
      | none => .ub "assert(0) in _generic_deadband"
      | some w =>
        bandLoop e ev data w inc ((len.toNat + inc - 1) / inc)
          (max 0 (off - ev.byte)) (max off ev.byte) ev.test false

/-- BOOL bit-loop of `_event_set`/`_event_reset`, `src/server/events.c:110-173`. -/
def evBits (step : Byte → Byte → Nat → Bool × Byte) (ev : Ev) (data : List Byte) :
    C (Bool × List Byte) :=
  if ev.bit > 7 then .ub "bit offset"
  else bitLoop step data ev.byte ev.count.toNat ev.bit ev.test false

/-- `_event_hit`, `src/server/events.c:372-392`: does the event fire, and the new test block. -/
def evHit (e : Env) (ev : Ev) (data : List Byte) (off size : Int) : C (Bool × List Byte) :=
  if ev.etype = EVENT_WRITE then .ok (true, ev.test)
  else if ev.etype = EVENT_CHANGE then evChange ev data off size
  else if ev.etype = EVENT_SET then evBits stepSet ev data
  else if ev.etype = EVENT_RESET then evBits stepReset ev data
  else if ev.etype = EVENT_EQUAL then evCompare ev data off size 0
  else if ev.etype = EVENT_GREATER then evCompare ev data off size (-1)
  else if ev.etype = EVENT_LESS then evCompare ev data off size 1
  else if ev.etype = EVENT_DEADBAND then evDeadband e ev data off size
  else .ok (false, ev.test)

/-- The range test of `event_check`, `src/server/events.c:414`:
`offset <= byte + size - 1` is an unsigned comparison, the other one is signed. -/
def evOverlap (ev : Ev) (off size : Int) : Bool :=
  decide (u32 off ≤ u32 (ev.byte + ev.size - 1)) && decide (off + size - 1 ≥ ev.byte)

/-- `_send_event`, `src/server/events.c:34-62`: the message, or nothing when it would be
larger than `DAX_MSGMAX`.  `data` is the tag's data block. -/
def sendEvent (s : Server) (idx : Int) (ev : Ev) (data : List Byte) : C (List Notif) :=
  match s.modByUid ev.notify with
  | none => .ub "event for a freed module"
  | some m =>
    if ev.options % 2 = 1 then
      if (ev.size + 16) % 4294967296 > DAX_MSGMAX then .ok []
      else do
        let d ← rd data ev.byte ev.size
        .ok [{ fd := m.fd, etype := ev.etype, idx := idx, id := ev.id, data := some d }]
    else .ok [{ fd := m.fd, etype := ev.etype, idx := idx, id := ev.id, data := none }]

/-- `event_check`, `src/server/events.c:405-422`: walk the list of events; returns the list
with updated test blocks and the messages sent. -/
def eventCheck (s : Server) (idx : Int) (data : List Byte) (off size : Int) :
    List Ev → C (List Ev × List Notif)
  | [] => .ok ([], [])
  | ev :: evs =>
    if evOverlap ev off size then do
      let (hit, test') ← evHit s.env ev data off size
      let ns ← if hit then sendEvent s idx ev data else .ok []
      let (evs', ns') ← eventCheck s idx data off size evs
      .ok ({ ev with test := test' } :: evs', ns ++ ns')
    else do
      let (evs', ns') ← eventCheck s idx data off size evs
      .ok (ev :: evs', ns')

/-- `event_del_check`, `src/server/events.c:427-440`. -/
def eventDelCheck (s : Server) (idx : Int) (data : List Byte) : List Ev → C (List Notif)
  | [] => .ok []
  | ev :: evs => do
    let ns ← if ev.etype = EVENT_DELETED then sendEvent s idx ev data else .ok []
    let ns' ← eventDelCheck s idx data evs
    .ok (ns ++ ns')

end Dax
