import Verif.Model.MqttConf
/-!
# What the entries of the MQTT module are to be
-/
set_option autoImplicit false
namespace Dax.MqttConf
open Dax.MasterConf (Field)

/-- The names of the tags that a field gives: none, one, or those of the table in their order. -/
inductive Names : Tags → List Name → Prop where
  | nil : Names .nil []
  | one {s : Name} : Names (.text s) [s]
  | list {l : List Name} : Names (.list (l.map .text)) l

/-- A number that may be missing, from 0 to 255. -/
def Number (default : Nat) (f : Option Int) (n : Nat) : Prop :=
  (f = none → n = default) ∧ ∀ v, f = some v → 0 ≤ v → v < 256 → (n : Int) = v

/-- A function that may be missing. -/
def Filters (f : Func) (b : Bool) : Prop := f ≠ .other ∧ (b = true ↔ f = .func)

/-- A subscription as its entry says. -/
structure SubMade (a : Arg) (s : Sub) : Prop where
  topic : a.topic = .text s.topic
  tags : Names a.tags s.tags
  filter : Filters a.filter s.filter
  qos : Number 0 a.qos s.qos

/-- A publication as its entry says: without a tag for the trigger the first of its tags is taken. -/
structure PubMade (a : Arg) (p : Pub) : Prop where
  topic : a.topic = .text p.topic
  tags : Names a.tags p.tags
  filter : Filters a.filter p.filter
  qos : Number 0 a.qos p.qos
  retained : p.retained = true ↔ a.retained = some true
  trigger : a.triggerTag = .text p.triggerTag ∨ (a.triggerTag = .nil ∧ ∃ l, p.tags = p.triggerTag :: l)
  type : Number 2 a.triggerType p.triggerType
  value : a.triggerValue = .text p.triggerValue ∨ (a.triggerValue = .nil ∧ p.triggerValue = nm "0")

/-- The entries belong to the calls one by one in their order. -/
inductive Pairs {α β : Type} (R : α → β → Prop) : List α → List β → Prop where
  | nil : Pairs R [] []
  | cons {a : α} {b : β} {l : List α} {m : List β} : R a b → Pairs R l m → Pairs R (a :: l) (b :: m)

/-- The arguments of the calls of `add_sub`. -/
def subArgs : List Call → List Arg
  | [] => []
  | .sub a :: l => a :: subArgs l
  | .pub _ :: l => subArgs l

/-- The arguments of the calls of `add_pub`. -/
def pubArgs : List Call → List Arg
  | [] => []
  | .sub _ :: l => pubArgs l
  | .pub a :: l => a :: pubArgs l

end Dax.MqttConf
