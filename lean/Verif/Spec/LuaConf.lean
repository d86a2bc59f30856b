import Verif.Model.LuaConf
import Verif.Spec.Conv
/-!
# What a script and its triggers are to be
-/
set_option autoImplicit false
namespace Dax.LuaConf
open Conv
open Dax.MasterConf (Field)

/-- The names of event types, in any case. -/
inductive TypeName : Name → Int → Prop where
  | write {s : Name} : strcaseeq s (nm "WRITE") = true → TypeName s 2
  | change {s : Name} : strcaseeq s (nm "CHANGE") = true → TypeName s 3
  | set {s : Name} : strcaseeq s (nm "SET") = true → TypeName s 4
  | reset {s : Name} : strcaseeq s (nm "RESET") = true → TypeName s 5
  | equal {s : Name} : strcaseeq s (nm "EQUAL") = true → TypeName s 6
  | greater {s : Name} : strcaseeq s (nm "GREATER") = true → TypeName s 7
  | less {s : Name} : strcaseeq s (nm "LESS") = true → TypeName s 8
  | deadband {s : Name} : strcaseeq s (nm "DEADBAND") = true → TypeName s 9

/-- The trigger that a field describes. -/
inductive Describes : TrigField → Option Trigger → Prop where
  | nil : Describes .nil none
  | table {tag s : Name} {count value k : Int} : TypeName s k → Describes (.table ⟨.text tag, .text s, count, value⟩) (some ⟨tag, i32 count, k, value⟩)

/-- A text that may be missing. -/
inductive Text : Field → Option Name → Prop where
  | text {s : Name} : Text (.text s) (some s)
  | nil : Text .nil none
  | other : Text .other none

/-- A switch that may be missing. -/
inductive Switch (default : Bool) : Option Bool → Bool → Prop where
  | given {b : Bool} : Switch default (some b) b
  | absent : Switch default none default

/-- The script that is to be made from an argument. -/
structure Made (a : Arg) (s : Script) : Prop where
  name : a.name = .text s.name
  thread : Text a.thread s.thread
  filename : Text a.filename s.filename
  enabled : s.filename ≠ none → Switch true a.enable s.enabled
  without : s.filename = none → s.enabled = false
  failOnError : Switch true a.failOnError s.failOnError
  autoRun : Switch true a.autoRun s.autoRun
  autoReload : Switch false a.autoReload s.autoReload
  run : Describes a.trigger s.run
  enable : Describes a.enableTrigger s.enable
  disable : Describes a.disableTrigger s.disable

/-- The trigger of a script for an effect. -/
def Script.trigger (s : Script) : Effect → Option Trigger
  | .run => s.run
  | .enable => s.enable
  | .disable => s.disable

/-- An event for a trigger: for a tag of an integer type other than TIME its value is that of the trigger. -/
def EventFor (t : Trigger) (script : Nat) (effect : Effect) (type : Nat) (e : Event) : Prop :=
  e.tag = t.tag ∧ e.count = t.count ∧ e.type = t.type ∧ e.script = script ∧ e.effect = effect ∧
    ∀ n lo hi, IntType type n lo hi → type ≠ DAX_TIME → lo ≤ t.value ∧ t.value ≤ hi ∧ Holds e.value n 0 t.value

end Dax.LuaConf
