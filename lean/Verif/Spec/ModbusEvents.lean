import Verif.Model.ModbusConf
/-!
# When the commands of a Modbus master are to be sent by events
-/
set_option autoImplicit false
namespace Dax.MbConf

/-- What can make a master send a command, besides the cycle. -/
inductive Kind where
  | change
  | write
  | trigger
deriving DecidableEq, Repr

/-- The number the module has for a kind of event. -/
def Kind.bit : Kind → Nat
  | .change => 4
  | .write => 8
  | .trigger => 16

/-- The mode asks for an event of the kind. -/
def Asks (mode : Nat) (k : Kind) : Prop := mode / k.bit % 2 = 1

instance (mode : Nat) (k : Kind) : Decidable (Asks mode k) := inferInstanceAs (Decidable (_ = _))

/-- What the server answers for the kind. -/
def Answers.code (a : Answers) : Kind → Int
  | .change => a.change
  | .write => a.write
  | .trigger => a.trigger

/-- The event is there; an event of writing stands for one of change. -/
def Kind.There (k : Kind) (made : List Nat) : Prop := k.bit ∈ made ∨ (k = .change ∧ Kind.write.bit ∈ made)

instance (k : Kind) (made : List Nat) : Decidable (k.There made) := inferInstanceAs (Decidable (_ ∨ _))

/-- Only events that were asked for, and no two of a kind. -/
def Once (mode : Nat) (made : List Nat) : Prop := made.Nodup ∧ ∀ b ∈ made, ∃ k : Kind, k.bit = b ∧ Asks mode k

/-- The command `j` of the port `i`. -/
def cmdAt (ports : List (List EvCmd)) (i j : Nat) : Option EvCmd := ports[i]?.bind (·[j]?)

/-- As configured: `modeOf` gives numbers below 32, and no event is there. -/
def New (ports : List (List EvCmd)) : Prop := ∀ i j c, cmdAt ports i j = some c → c.mode < 32 ∧ c.made = []

/-- The bit `n` of a tag of type BOOL. -/
def bitAt (bits : List Byte) (n : Nat) : Prop := (bits[n / 8]?.getD 0).getLsbD (n % 8) = true

end Dax.MbConf
