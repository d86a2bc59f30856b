import Verif.Model.Basic
/-!
# The MQTT module: `src/modules/mqtt/mqtt.c`, `mqttopts.c`
-/
set_option autoImplicit false
namespace Dax.Mqtt

/-! ## Topics -/

/-- `_topic_compare`, `src/modules/mqtt/mqttopts.c:380-409`: both texts without the terminating zero, from the current positions.  After a `+` both positions go on by one more, also if a text ends there: then it is read behind its end. -/
def topicCompare : List Byte → List Byte → C Bool
  | [], [] => .ok true
  | [], _ :: _ => .ok false
  | cs :: sub, received =>
    if cs = 43 then
      match sub, received.dropWhile (· ≠ 47) with
      | _ :: sub, _ :: received => topicCompare sub received
      | _, _ => .ub "read behind the end of a text"
    else match received with
      | [] => .ok false
      | cr :: received =>
        if cs ≠ cr then .ok false
        else if cs = 47 ∧ sub.head? = some 35 then .ok true
        else topicCompare sub received

/-- The member `enabled`: `ENABLE_UNINIT`, `ENABLE_GOOD`, `ENABLE_FAIL`, `src/modules/mqtt/mqtt.h:35-37`. -/
inductive Enable where
  | uninit | good | fail
deriving Repr, DecidableEq

/-- `get_sub`, `src/modules/mqtt/mqttopts.c:416-427`: position of the subscription, counted from `n`. -/
def getSub (topic : List Byte) : Nat → List (Enable × List Byte) → C (Option Nat)
  | _, [] => .ok none
  | n, (e, sub) :: l =>
    if e = .good then do
      let b ← topicCompare sub topic
      if b then .ok (some n) else getSub topic (n + 1) l
    else getSub topic (n + 1) l

/-! ## The arrays -/

/-- `subscriber_count`, `subscriber_size`, and how many entries have been allocated.  The same for publishers. -/
structure Table where
  count : Nat := 0
  size : Nat := 0
  alloc : Nat := 0
deriving Repr, DecidableEq

/-- `_get_new_sub`, `src/modules/mqtt/mqttopts.c:35-72`, and `_get_new_pub`, `:152-192`, the same: the number of the new entry.  The allocation does not fail. -/
def newEntry (t : Table) : C (Nat × Table) :=
  let t := if t.count = 0 then { t with size := 16, alloc := 16 } else if t.count = t.size then { t with alloc := t.size * 2 } else t
  if t.count < t.alloc then .ok (t.count, { t with count := t.count + 1 }) else .ub "written behind the array"

/-- Entries one after the other. -/
def newEntries (t : Table) : Nat → C Table
  | 0 => .ok t
  | n + 1 => do
    let (_, t) ← newEntry t
    newEntries t n

/-! ## The loop -/

/-- What comes of the attempt to set up a subscription or publication: a tag is missing (or something else that may change, such as a type); it can never work; the broker refuses; it works. -/
inductive Setup where
  | missing | useless | refused | works
deriving Repr, DecidableEq

/-- The variables of `client_loop`, the member `enabled` of the subscriptions and publications, and which of the subscriptions the broker has for the connection. -/
structure Loop where
  connected : Bool := false
  cycle : Nat := 1
  connectCycle : Nat := 1
  badSubs : Nat := 1
  badPubs : Nat := 1
  subs : List (Enable × Bool)
  pubs : List Enable
deriving Repr

/-- `subscribe`, `src/modules/mqtt/mqtt.c:130-187`: `enabled`, whether the broker has it, and the number that is returned. -/
def subscribe : Setup → Enable × Bool × Nat
  | .missing => (.uninit, false, 1)
  | .useless => (.fail, false, 0)
  | .refused => (.fail, false, 0)
  | .works => (.good, true, 0)

/-- `publish`, `src/modules/mqtt/mqtt.c:278-358`.  `enabled` is set to `ENABLE_FAIL` first.  The broker is not asked. -/
def publish : Setup → Enable × Nat
  | .missing => (.fail, 1)
  | .useless => (.fail, 0)
  | .refused => (.good, 0)
  | .works => (.good, 0)

/-- `setup_subscribers`, `src/modules/mqtt/mqtt.c:191-203`; `out` is what comes of each attempt, by position. -/
def setupSubs (out : Nat → Setup) : Nat → List (Enable × Bool) → List (Enable × Bool) × Nat
  | _, [] => ([], 0)
  | n, (e, b) :: l =>
    let (l, k) := setupSubs out (n + 1) l
    if e = .uninit then
      let (e, b, r) := subscribe (out n)
      ((e, b) :: l, r + k)
    else ((e, b) :: l, k)

/-- `setup_publishers`, `src/modules/mqtt/mqtt.c:361-373`. -/
def setupPubs (out : Nat → Setup) : Nat → List Enable → List Enable × Nat
  | _, [] => ([], 0)
  | n, e :: l =>
    let (l, k) := setupPubs out (n + 1) l
    if e = .uninit then
      let (e, r) := publish (out n)
      (e :: l, r + k)
    else (e :: l, k)

/-- What happens in one turn: whether the broker accepts a connection, what comes of the attempts, whether the connection is lost while the module waits. -/
structure Turn where
  accepted : Bool
  sub : Nat → Setup
  pub : Nat → Setup
  lost : Bool

/-- The attempt to connect, `src/modules/mqtt/mqtt.c:395-409`; the flag is whether there was one.  The connection is made with `cleansession`, `:391`: the broker begins without subscriptions. -/
def Loop.connect (m : Loop) (t : Turn) : Loop × Bool :=
  if m.connected = false ∧ m.connectCycle ≤ m.cycle then
    (if t.accepted = true then { m with connected := true, connectCycle := 1, cycle := 0, subs := m.subs.map fun p => (p.1, false) }
     else { m with connectCycle := (if m.connectCycle * 2 > 60 then 60 else m.connectCycle * 2), cycle := 0 }, true)
  else (m, false)

/-- The attempts to set up subscriptions, `src/modules/mqtt/mqtt.c:412-414`. -/
def Loop.trySubs (m : Loop) (t : Turn) : Loop :=
  if m.connected = true ∧ m.badSubs ≠ 0 ∧ m.cycle % 10 = 0 then { m with subs := (setupSubs t.sub 0 m.subs).1, badSubs := (setupSubs t.sub 0 m.subs).2 } else m

/-- The attempts to set up publications, `src/modules/mqtt/mqtt.c:415-417`. -/
def Loop.tryPubs (m : Loop) (t : Turn) : Loop :=
  if m.connected = true ∧ m.badPubs ≠ 0 ∧ m.cycle % 10 = 0 then { m with pubs := (setupPubs t.pub 0 m.pubs).1, badPubs := (setupPubs t.pub 0 m.pubs).2 } else m

/-- The end of a turn, `src/modules/mqtt/mqtt.c:424-425`, and `connlost`, `:119-124`.  The connection is only lost while the module waits. -/
def Loop.wait (m : Loop) (t : Turn) : Loop := { m with connected := m.connected && !t.lost, cycle := (m.cycle + 1) % 4294967296 }

/-- One turn of `client_loop`, `src/modules/mqtt/mqtt.c:394-426`; the flag is whether a connection was attempted. -/
def Loop.turn (m : Loop) (t : Turn) : Loop × Bool := (((((m.connect t).1.trySubs t).tryPubs t).wait t), (m.connect t).2)

/-- Turns one after the other. -/
def Loop.run : Loop → List Turn → Loop × List Bool
  | m, [] => (m, [])
  | m, t :: ts =>
    let r := m.turn t
    let q := r.1.run ts
    (q.1, r.2 :: q.2)

/-- The module after its configuration. -/
def Loop.start (subs pubs : Nat) : Loop := { subs := List.replicate subs (.uninit, false), pubs := List.replicate pubs .uninit }

/-! ## Messages -/

/-- What the filter of a subscription does with a message: there is none; it fails, or its result cannot be converted at all; or its result is converted into the buffer. -/
inductive Filter where
  | none | failed | converted (f : List Byte → List Byte)

/-- `msgarrived`, `src/modules/mqtt/mqtt.c:48-117`, for a subscription to `tags` tags with the buffer `buff`: the buffer afterwards, which is what is written to the tag or group. -/
def arrived (tags : Nat) (buff : List Byte) (filter : Filter) (payload : List Byte) : C (List Byte) :=
  let buff := match filter with
    | .none => payload.take buff.length ++ buff.drop payload.length
    | .failed => buff
    | .converted f => f buff
  if tags = 0 then .ub "the array of handles is NULL" else .ok buff

/-- `publish_callback`, `src/modules/mqtt/mqtt.c:208-276`, without a filter: what is published, if `read` is what comes from the server.  If it cannot be read, the buffer is published as it is. -/
def published (buff : List Byte) (read : Option (List Byte)) : List Byte := read.getD buff

end Dax.Mqtt
