import Verif.Model.Basic
/-!
# How the command line of the server is written, and what counts
-/
set_option autoImplicit false
namespace Dax.ServerOpt

/-- The letters of the options with a value: configuration file, socket, address, port, modules without tags. -/
def valued : List Byte := nm "CSIPX"

/-- The long names. -/
def longNames : List (Name × Byte) := [(nm "configfile", 67#8), (nm "socketname", 83#8), (nm "serverip", 73#8), (nm "serverport", 80#8), (nm "mod-tag-exclude", 88#8)]

/-- The words of a command line, and the options they give with their values.  `-v` is the only flag that lets the program run. -/
inductive Spells : List Name → List (Byte × Name) → Prop where
  | nil : Spells [] []
  | other {w : Name} {ws : List Name} {os : List (Byte × Name)} : w.head? ≠ some 45#8 → Spells ws os → Spells (w :: ws) os
  | verbose {ws : List Name} {os : List (Byte × Name)} : Spells ws os → Spells (nm "-v" :: ws) os
  | verboseLong {ws : List Name} {os : List (Byte × Name)} : Spells ws os → Spells (nm "--verbose" :: ws) os
  | short {c : Byte} {v : Name} {ws : List Name} {os : List (Byte × Name)} : c ∈ valued → Spells ws os → Spells ([45#8, c] :: v :: ws) ((c, v) :: os)
  | glued {c b : Byte} {v : Name} {ws : List Name} {os : List (Byte × Name)} : c ∈ valued → Spells ws os → Spells ((45#8 :: c :: b :: v) :: ws) ((c, b :: v) :: os)
  | long {n : Name} {c : Byte} {v : Name} {ws : List Name} {os : List (Byte × Name)} : (n, c) ∈ longNames → Spells ws os → Spells ((45#8 :: 45#8 :: n) :: v :: ws) ((c, v) :: os)
  | equals {n : Name} {c : Byte} {v : Name} {ws : List Name} {os : List (Byte × Name)} : (n, c) ∈ longNames → Spells ws os → Spells ((45#8 :: 45#8 :: (n ++ 61#8 :: v)) :: ws) ((c, v) :: os)

/-- The value of an option: the last one counts. -/
def given (c : Byte) (os : List (Byte × Name)) : Option Name := ((os.filter fun o => o.1 == c).map (·.2)).getLast?

/-- A word of a text with spaces. -/
def WordOf (name text : Name) : Prop :=
  name ≠ [] ∧ 32#8 ∉ name ∧ ∃ pre post, (pre = [] ∨ ∃ q, pre = q ++ [32#8]) ∧ (post = [] ∨ ∃ q, post = 32#8 :: q) ∧ text = pre ++ name ++ post

end Dax.ServerOpt
