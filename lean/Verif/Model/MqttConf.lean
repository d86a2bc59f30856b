import Verif.Model.MasterConf
/-!
# Configuration of the MQTT module: `src/modules/mqtt/mqttopts.c`, and what `mqtt.c` makes of it

Fields are what the functions of Lua give.  An error in the configuration ends it, and the module (`src/modules/mqtt/mqtt.c:449-453`); a configuration file that catches the error is not modelled.  The memory of the tables of entries is in `Mqtt`.
-/
set_option autoImplicit false
namespace Dax.MqttConf
open Dax.MasterConf (Field)

/-- The field with the names of tags: absent, a table with its places from 1 to its length, a text or number, anything else. -/
inductive Tags where
  | nil
  | list (l : List Field)
  | text (s : Name)
  | other
deriving Repr, DecidableEq

/-- The field with a function: absent, a function, anything else. -/
inductive Func where
  | nil
  | func
  | other
deriving Repr, DecidableEq

/-- The argument of `add_sub` and `add_pub`; the fields behind `qos` are for `add_pub` only.  Integers are what `lua_tointeger` gives, 0 for a value that is none. -/
structure Arg where
  topic : Field
  tags : Tags := .nil
  filter : Func := .nil
  qos : Option Int := none
  retained : Option Bool := none
  triggerTag : Field := .nil
  triggerType : Option Int := none
  triggerValue : Field := .nil
deriving Repr, DecidableEq

/-- `subscriber_t`, `src/modules/mqtt/mqtt.h:40-52`: what the configuration sets. -/
structure Sub where
  topic : Name
  tags : List Name
  filter : Bool
  qos : Nat
deriving Repr, DecidableEq

/-- `publisher_t`, `src/modules/mqtt/mqtt.h:55-72`: what the configuration sets. -/
structure Pub where
  topic : Name
  tags : List Name
  filter : Bool
  qos : Nat
  retained : Bool
  triggerTag : Name
  triggerType : Nat
  triggerValue : Name
deriving Repr, DecidableEq

/-- A number in a `uint8_t`. -/
def u8 (v : Int) : Nat := (v % 256).toNat

/-- The loop over the table of tags, `src/modules/mqtt/mqttopts.c:109-114`. -/
def tagNames : List Field → C (List Name)
  | [] => .ok []
  | f :: l =>
    match f.str with
    | none => .ub "strdup of NULL"
    | some s => do
      let r ← tagNames l
      .ok (s :: r)

/-- The tags, `src/modules/mqtt/mqttopts.c:98-128`, in `_add_pub` `:226-256`: none is an error. -/
def readTags : Tags → C (Option (List Name))
  | .nil => .ok (some [])
  | .list l => do
    let r ← tagNames l
    .ok (some r)
  | .text s => .ok (some [s])
  | .other => .ok none

/-- `_add_sub`, `src/modules/mqtt/mqttopts.c:75-147`: none is an error. -/
def addSub (l : List Sub) (a : Arg) : C (Option (List Sub)) :=
  if a.topic = .nil then .ok none
  else match a.topic.str with
    | none => .ub "strdup of NULL"
    | some topic => do
      let r ← readTags a.tags
      match r with
      | none => .ok none
      | some tags =>
        if a.filter = .other then .ok none
        else .ok (some (l ++ [{ topic := topic, tags := tags, filter := decide (a.filter = .func), qos := u8 (a.qos.getD 0) }]))

/-- The tag of the trigger, `src/modules/mqtt/mqttopts.c:274-290`: none is an error. -/
def triggerTag (f : Field) (tags : List Name) : C (Option Name) :=
  match f with
  | .text s => .ok (some s)
  | .other => .ub "strdup of NULL"
  | .nil => .ok tags.head?

/-- The value of the trigger, `src/modules/mqtt/mqttopts.c:300-304`, and `:187`. -/
def triggerValue : Field → C Name
  | .text s => .ok s
  | .other => .ub "strdup of NULL"
  | .nil => .ok (nm "0")

/-- `_add_pub`, `src/modules/mqtt/mqttopts.c:195-314`, with `_get_new_pub`, `:174-191`: none is an error. -/
def addPub (l : List Pub) (a : Arg) : C (Option (List Pub)) :=
  if a.topic = .nil then .ok none
  else match a.topic.str with
    | none => .ub "strdup of NULL"
    | some topic => do
      let r ← readTags a.tags
      match r with
      | none => .ok none
      | some tags =>
        if a.filter = .other then .ok none
        else do
          let t ← triggerTag a.triggerTag tags
          match t with
          | none => .ok none
          | some t => do
            let v ← triggerValue a.triggerValue
            .ok (some (l ++ [{ topic := topic, tags := tags, filter := decide (a.filter = .func), qos := u8 (a.qos.getD 0), retained := a.retained.getD false,
                               triggerTag := t, triggerType := u8 (a.triggerType.getD 2), triggerValue := v }]))

/-- A configuration of subscriptions and publications, each call by itself; none is an error. -/
inductive Call where
  | sub (a : Arg)
  | pub (a : Arg)
deriving Repr, DecidableEq

/-- The calls of a configuration file in their order. -/
def addAll (s : List Sub) (p : List Pub) : List Call → C (Option (List Sub × List Pub))
  | [] => .ok (some (s, p))
  | .sub a :: cs => do
    let r ← addSub s a
    match r with
    | none => .ok none
    | some s => addAll s p cs
  | .pub a :: cs => do
    let r ← addPub p a
    match r with
    | none => .ok none
    | some p => addAll s p cs

/-- What is asked of the broker. -/
inductive Request where
  | connect (address client : Name) (timeout : Int) (login : Option (Name × Name))
  | subscribe (topic : Name) (qos : Nat)
  | publish (topic : Name) (qos : Nat) (retained : Bool)
deriving Repr, DecidableEq

/-- The attributes of the module, `src/modules/mqtt/mqttopts.c:346-351`.  The timeout is what `atoi` gives. -/
structure Attrs where
  ip : Name
  port : Name
  timeout : Int
  client : Name
  user : Option Name
  password : Option Name
deriving Repr, DecidableEq

/-- The connection, `client_loop`, `src/modules/mqtt/mqtt.c:386-392,397`: the address in 64 bytes with the final zero. -/
def connect (a : Attrs) : Request := .connect ((nm "tcp://" ++ a.ip ++ nm ":" ++ a.port).take 63) a.client a.timeout none

/-- `MQTTClient_subscribe` in `subscribe`, `src/modules/mqtt/mqtt.c:178`. -/
def subscribe (s : Sub) : Request := .subscribe s.topic 0

/-- `MQTTClient_publish` in `publish_callback`, `src/modules/mqtt/mqtt.c:263,271`. -/
def publish (p : Pub) : Request := .publish p.topic p.qos p.retained

end Dax.MqttConf
