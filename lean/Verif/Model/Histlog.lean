import Verif.Model.Events
/-!
# The logger of histories: `src/modules/histlog/histlog.c`

What it hands to its plugin.  Times are doubles in the code and integers here, differences of times are exact here.  The threshold is a double in the code and an integer here: differences are
integers for the types that are compared here, so that only the next integer above matters (for thresholds up to 2^53; larger ones may be missed by rounding).
-/
set_option autoImplicit false
namespace Dax.Hist

/-- `ON_CHANGE`, `ON_WRITE`, `src/modules/histlog/histlog.h:51-52`. -/
def ON_CHANGE : Nat := 1
def ON_WRITE : Nat := 2

/-- What is configured for a tag and known of it: the members `h.type`, `h.size`, `trigger`, `trigger_value` and `timeout` of `tag_config`, `src/modules/histlog/histlog.h:34-49`. -/
structure Cfg where
  type : Nat
  size : Nat
  trigger : Nat
  threshold : Int
  timeout : Int
deriving Repr, DecidableEq

/-- The members `cmpvalue`, `lastvalue`, `lasttimestamp`, `lastgood`, and all that was given to `write_data` for the tag, in this order: value (none for NULL) and time. -/
structure St where
  cmp : List Byte
  last : List Byte
  lastTs : Int := 0
  lastgood : Bool := true
  log : List (Option (List Byte) × Int) := []
deriving Repr, DecidableEq

/-- The difference of two `int`s or `int64_t`s, and its absolute value; undefined if it is out of range. -/
def signedDiff (w : Nat) (a b : Int) : C Int :=
  if a - b < 2 ^ (w - 1) ∧ -2 ^ (w - 1) < a - b then .ok (if a - b < 0 then -(a - b) else a - b) else .ub "overflow of a difference"

/-- The absolute value of the difference of two unsigned numbers, which is never below 0. -/
def unsignedDiff (w : Nat) (a b : Nat) : Int := ((a + 2 ^ w - b) % 2 ^ w : Nat)

/-- `_test_difference`, `src/modules/histlog/histlog.c:36-76`.  `a` is in memory of the size of the type, `b` in a buffer of 8 bytes.  UINT and WORD are read as 4 bytes, which are not there.  TIME is compared by its lower half.
The comparison of floating point numbers is a parameter. -/
def testDifference (flt : Nat → List Byte → List Byte → Int → Bool) (t : Nat) (a b : List Byte) (threshold : Int) : C Bool :=
  if t = DAX_BYTE then do
    let d ← signedDiff 32 (leNat (a.take 1)) (leNat (b.take 1))
    .ok (decide (d ≥ threshold))
  else if t = DAX_SINT ∨ t = DAX_CHAR then do
    let d ← signedDiff 32 (leInt (a.take 1)) (leInt (b.take 1))
    .ok (decide (d ≥ threshold))
  else if t = DAX_UINT ∨ t = DAX_WORD then .ub "read behind the stored value"
  else if t = DAX_INT then do
    let d ← signedDiff 32 (leInt (a.take 2)) (leInt (b.take 2))
    .ok (decide (d ≥ threshold))
  else if t = DAX_UDINT ∨ t = DAX_DWORD ∨ t = DAX_TIME then .ok (decide (unsignedDiff 32 (leNat (a.take 4)) (leNat (b.take 4)) ≥ threshold))
  else if t = DAX_DINT then do
    let d ← signedDiff 32 (leInt (a.take 4)) (leInt (b.take 4))
    .ok (decide (d ≥ threshold))
  else if t = DAX_ULINT ∨ t = DAX_LWORD then .ok (decide (unsignedDiff 64 (leNat (a.take 8)) (leNat (b.take 8)) ≥ threshold))
  else if t = DAX_LINT then do
    let d ← signedDiff 64 (leInt (a.take 8)) (leInt (b.take 8))
    .ok (decide (d ≥ threshold))
  else if t = DAX_REAL ∨ t = DAX_LREAL then .ok (flt t a b threshold)
  else .ok false

/-- `write_data`. -/
def St.put (x : St) (v : Option (List Byte)) (t : Int) : St := { x with log := x.log ++ [(v, t)] }

/-- One write event of the tag: the value it carries, or that was read instead (none if neither could be had), the time at the begin of the callback, and the time when it asks again. -/
structure Arrival where
  data : Option (List Byte)
  now : Int
  late : Int
deriving Repr, DecidableEq

/-- `_event_callback`, `src/modules/histlog/histlog.c:79-149`. -/
def callback (flt : Nat → List Byte → List Byte → Int → Bool) (g : Cfg) (x : St) (e : Arrival) : C St :=
  match e.data with
  | none => .ok x
  | some d =>
    if g.timeout > 0 ∧ e.now - x.lastTs > g.timeout then
      let x := (x.put none (e.now - g.timeout)).put (some d) e.now
      let x := if g.trigger = ON_CHANGE then { x with last := d, cmp := d, lastgood := true } else x
      .ok { x with lastTs := e.now }
    else if g.trigger = ON_WRITE then .ok { x.put (some d) e.late with lastTs := e.now }
    else if g.trigger = ON_CHANGE then do
      let far ← testDifference flt g.type x.cmp d g.threshold
      if far then
        let x := if x.lastgood then x else { x.put (some x.last) x.lastTs with lastgood := true }
        .ok { x.put (some d) e.now with cmp := d, lastTs := e.now }
      else .ok { x with last := d, lastgood := false, lastTs := e.now }
    else .ok { x with lastTs := e.now }

/-- What `_add_tags` does with a tag it has found, `src/modules/histlog/histlog.c:175-198`: `read` is the value of the tag, if it can be read, otherwise the stored value is what `junk` the buffer contains.
(For tags of a compound type nothing is done.  `lastgood` and `lasttimestamp` are as `_add_tag` has set them, `src/modules/histlog/histopts.c:54-55`.) -/
def start (g : Cfg) (read : Option (List Byte)) (junk : List Byte) (now late : Int) : St :=
  { cmp := read.getD junk, last := List.replicate g.size 0, log := (none, now) :: match read with | some d => [(some d, late)] | none => [] }

/-- Events one after the other. -/
def events (flt : Nat → List Byte → List Byte → Int → Bool) (g : Cfg) : St → List Arrival → C St
  | x, [] => .ok x
  | x, e :: es => do
    let x ← callback flt g x e
    events flt g x es

/-! ## Finding tags, and the end -/

/-- The variables `tag_failures`, `loopcount` and `interval` of `main`, `src/modules/histlog/histlog.c:222-223`. -/
structure Search where
  failures : Int := -1
  loops : Nat := 0
  interval : Nat := 1
deriving Repr, DecidableEq

/-- One flush in the loop of `main`, `src/modules/histlog/histlog.c:269-279`; `missing` is what `_add_tags` returns.  The flag is whether it was called. -/
def Search.flush (m : Search) (missing : Nat) : Search × Bool :=
  if m.failures ≠ 0 ∧ m.loops % m.interval = 0 then
    ({ failures := missing, interval := (if m.interval + 1 > 12 then 12 else m.interval + 1), loops := (m.loops + 1) % 4294967296 }, true)
  else ({ m with loops := (m.loops + 1) % 4294967296 }, false)

/-- Flushes one after the other, and at which of them tags were looked for. -/
def Search.run : Search → List Nat → Search × List Bool
  | m, [] => (m, [])
  | m, k :: ks =>
    let (m, b) := m.flush k
    let (m, l) := m.run ks
    (m, b :: l)

/-- `getout`, `src/modules/histlog/histlog.c:300-315`.  For each tag of the configuration what is known of it; none if it was not found or is of a compound type: then its member `tag` has never been set. -/
def getout (now : Int) : List (Option St) → C (List (Option St))
  | [] => .ok []
  | none :: _ => .ub "pointer never set is given to the plugin"
  | some x :: l => do
    let l ← getout now l
    .ok (some (x.put none now) :: l)

end Dax.Hist
